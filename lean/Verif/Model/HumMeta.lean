import Verif.Model.Names
import Verif.Model.Dates
import Verif.Model.Line
import Verif.Model.Text
import Verif.Model.HumTempo
/-
Metadata in Humdrum: the reference records written (humdrum/humdrumwriter.py:563-834; humdrum/m21convert.py:3353-3488; shared/m21utilities.py:2722-2749)
and read (humdrum/humdrumfile.py:889-960, 10755-10937; shared/m21utilities.py:2806-2918). Letters are ASCII.
-/
namespace C21

/-- A text of music21's metadata; the empty language is none. -/
structure MText where
  data : Str
  lang : Str := []
  translated : Bool := false
deriving DecidableEq

/-- A value of the metadata: a text, a contributor with role and names, a date. -/
inductive MVal
  | text (t : MText)
  | person (role : Str) (names : List MText)
  | date (d : DatePrim)
deriving DecidableEq

/-- The metadata: values by unique name (or custom key), in order. -/
abbrev MdDict := Dict Str (List MVal)

/-- `md[name]`. -/
def mdValues (md : MdDict) (n : Str) : List MVal := (md.get? n).getD []

/-- `md.add(name, value)` and `md.addCustom(name, value)`. -/
def mdAdd (md : MdDict) (n : Str) (v : MVal) : MdDict := md.set n (mdValues md n ++ [v])

/-- `md.all(returnPrimitives=True, returnSorted=False)`. -/
def mdItems (md : MdDict) : List (Str × MVal) := md.flatMap (fun p => p.2.map (fun v => (p.1, v)))

/-! ### Writing -/

/-- `s.upper()` for ASCII. -/
def upperStr (s : Str) : Str := s.map Char.toUpper

/-- The language of a text in a key (m21convert.py:3396-3401, 3461-3471). -/
def langSuffix (t : MText) : Str :=
  if t.lang = [] then [] else if t.translated then "@".toList ++ upperStr t.lang else "@@".toList ++ upperStr t.lang

/-- m21convert.py:3369-3380 `m21UniqueNameToHumdrumKeyWithoutIndexOrLanguage`. -/
def keyOfName (n : Str) : Option Str :=
  match uniqueNameToKey.get? (String.ofList n) with
  | some k => some k.toList
  | none => if startsWith n "humdrumraw:".toList then some (n.drop 11) else none

/-- m21convert.py:3383-3402 `m21MetadataItemToHumdrumKeyWithoutIndex`: a language is added even when there is no key, which raises. -/
def keyWithoutIndex (n : Str) (v : MVal) : Except PyErr (Option Str) :=
  match v with
  | .text t =>
    if t.lang = [] then .ok (keyOfName n)
    else
      match keyOfName n with
      | none => .error .typeError
      | some k => .ok (some (k ++ langSuffix t))
  | _ => .ok (keyOfName n)

/-- m21utilities.py:2722-2749 `m21MetadataValueToString`. Simplified: a contributor or date under a raw key is written as elsewhere. -/
def mdString (v : MVal) : Str :=
  replaceAll ['\n'] ['\\', 'n'] (match v with
    | .text t => t.data
    | .person _ [] => []
    | .person _ (t :: _) => t.data
    | .date d => stringFromPrim d)

/-- m21convert.py:3425-3428, 3476-3479. -/
def recordText (key value : Str) : Str := if value = [] then "!!!".toList ++ key ++ ":".toList else "!!!".toList ++ key ++ ": ".toList ++ value

/-- m21convert.py:3460-3471: the language of the value. -/
def valueSuffix : MVal → Except PyErr Str
  | .text t => .ok (langSuffix t)
  | .person _ [] => .error .indexError
  | .person _ (t :: _) => .ok (langSuffix t)
  | .date _ => .ok []

/-- `str(idx)` if it is positive. -/
def indexText (idx : Nat) : Str := if idx > 0 then natStr idx else []

/-- m21convert.py:3432-3481 `m21MetadataItemToHumdrumReferenceLineStr`. -/
def itemLine (idx : Nat) (n : Str) (v : MVal) : Except PyErr Str :=
  if startsWith n "raw:".toList then .ok (recordText (n.drop 4) (mdString v))
  else if startsWith n "humdrumraw:".toList then .ok (recordText (n.drop 11) (mdString v))
  else if startsWith n "humdrum:".toList then (valueSuffix v).map (fun s => recordText (n.drop 8 ++ indexText idx ++ s) (mdString v))
  else
    match keyOfName n with
    | some k => (valueSuffix v).map (fun s => recordText (k ++ indexText idx ++ s) (mdString v))
    | none => (valueSuffix v).map (fun s => recordText (n ++ s) (mdString v))

/-- m21convert.py:3405-3429 `humdrumMetadataItemToHumdrumReferenceLineStr`. -/
def roleLine (idx : Nat) (key : Str) (v : MVal) : Str :=
  recordText (key ++ indexText idx ++ (match v with | .text t => langSuffix t | _ => [])) (mdString v)

/-- The index dictionary `hdKeyWithoutIndexToCurrentIndex`. -/
abbrev IdxDict := Dict (Option Str) Nat

/-- `d.get(key, 0)`. -/
def idxOf (d : IdxDict) (k : Option Str) : Nat := (d.get? k).getD 0

/-- The names of the records at the top, in order (humdrumwriter.py:603-635). -/
def topNames : List Str :=
  ["composer".toList, "title".toList, "alternativeTitle".toList, "popularTitle".toList, "parentTitle".toList, "groupTitle".toList, "movementName".toList,
   "movementNumber".toList, "copyright".toList]

/-- humdrumwriter.py:641-783: one item of the top, the line and the indexes after it. -/
def topItem (d : IdxDict) (n : Str) (v : MVal) : Except PyErr (Str × IdxDict) :=
  match keyWithoutIndex n v with
  | .error e => .error e
  | .ok k =>
    if n = "movementName".toList then (itemLine 0 n v).map (fun l => (l, d))
    else (itemLine (idxOf d k) n v).map (fun l => (l, d.set k (idxOf d k + 1)))

/-- The unique names of music21's namespace m21FileInfo. -/
def fileInfoNames : List Str := ["software".toList, "fileFormat".toList, "filePath".toList, "fileNumber".toList]

/-- humdrumwriter.py:818-834: an item with a name of music21. -/
def plainItem (d : IdxDict) (n : Str) (v : MVal) : Except PyErr (Option Str × IdxDict) :=
  match keyWithoutIndex n v with
  | .error e => .error e
  | .ok none => (itemLine 0 n v).map (fun l => (some l, d))
  | .ok (some k) =>
    if k = [] then (itemLine 0 n v).map (fun l => (some l, d))
    else (itemLine (idxOf d (some k)) n v).map (fun l => (some l, d.set (some k) (idxOf d (some k) + 1)))

/-- humdrumwriter.py:786-836: one of the other items. -/
def restItem (d : IdxDict) (n : Str) (v : MVal) : Except PyErr (Option Str × IdxDict) :=
  if startsWith n "humdrumraw:".toList || startsWith n "humdrum:".toList || startsWith n "raw:".toList then (itemLine 0 n v).map (fun l => (some l, d))
  else if n ∈ fileInfoNames then .ok (none, d)
  else if n = "otherContributor".toList then
    match v with
    | .person role _ =>
      match roleKey role with
      | some k => .ok (some (roleLine (idxOf d (some k.toList)) k.toList v), d.set (some k.toList) (idxOf d (some k.toList) + 1))
      | none => plainItem d n v
    | _ => .error .attributeError
  else plainItem d n v

/-- The loops over the items of the top. -/
def topLines : IdxDict → List (Str × MVal) → Except PyErr (List Str × IdxDict)
  | d, [] => .ok ([], d)
  | d, p :: ps =>
    match topItem d p.1 p.2 with
    | .error e => .error e
    | .ok (l, d') => (topLines d' ps).map (fun r => (l :: r.1, r.2))

/-- The loop over the other items. -/
def otherLines : IdxDict → List (Str × MVal) → Except PyErr (List Str)
  | _, [] => .ok []
  | d, p :: ps =>
    match restItem d p.1 p.2 with
    | .error e => .error e
    | .ok (l, d') => (otherLines d' ps).map (fun r => l.toList ++ r)

/-- `_addHeaderRecords` (humdrumwriter.py:563-836): the lines inserted at the top and those appended at the end. The record of the system decoration
(C53) is left out. -/
def writeMeta (md : MdDict) : Except PyErr (List Str × List Str) :=
  match topLines [] (topNames.flatMap (fun n => (mdItems md).filter (fun p => p.1 = n))) with
  | .error e => .error e
  | .ok (top, d) => (otherLines d ((mdItems md).filter (fun p => p.1 ∉ topNames))).map (fun rest => (top, rest))

/-! ### Reading -/

/-- humdrumfile.py:907-945: what a line adds to the records; `before` says that no data line comes before it, and `markName` is the name of the tempo
in a text with a metronome mark (convert.py:496-512). -/
def biblioEntry (markName : Str → Str) (before : Bool) (line : Str) : Option (Str × Str) :=
  if !isGlobalReference line then none
  else
    let key := referenceKey line
    let value := importText (referenceValue line)
    if key = "system-decoration".toList then none
    else if startsWith key "RDF**".toList then none
    else if value = [] then none
    else if key = "OMD".toList then
      (if before then
        match markInfo value with
        | none => some (key, value)
        | some _ => if markName value = [] then none else some (key, markName value)
      else none)
    else some (key, value)

/-- humdrumfile.py:947-959: a single title that is the same as a single movement name is removed. -/
def dropTitle (b : List (Str × Str)) : List (Str × Str) :=
  match (b.filter (fun p => p.1 = "OTL".toList)).map (·.2), (b.filter (fun p => p.1 = "OMD".toList)).map (·.2) with
  | [t], [m] => if t = m then b.erase ("OTL".toList, t) else b
  | _, _ => b

/-- `[^0-9@ \t]`. -/
def isKeyChar (c : Char) : Bool := !isDig c && c ≠ '@' && c ≠ ' ' && c ≠ '\t'

/-- The language group of the pattern: the letters and whether there are two `@`. -/
def parseLang : Str → Option (Str × Bool)
  | [] => some ([], false)
  | '@' :: '@' :: l => if l.all Char.isAlpha then some (l, true) else none
  | '@' :: l => if l.all Char.isAlpha then some (l, false) else none
  | _ => none

/-- humdrumfile.py:10779: the pattern `^([^0-9@ \t]*)([0-9]*)?((@{1,2})([a-zA-Z]*))?$`: key, language, and whether there are two `@`. -/
def parseKey (k : Str) : Option (Str × Str × Bool) :=
  (parseLang ((k.dropWhile isKeyChar).dropWhile isDig)).map (fun p => (k.takeWhile isKeyChar, p.1, p.2))

/-- humdrumfile.py:10769-10805 `_parseReferenceItem`; the last part says whether the key is a standard one. -/
def parseItem (k v : Str) : Str × MText × Bool :=
  match parseKey k with
  | none => (k, { data := v }, false)
  | some (g, l, two) => (g, { data := v, lang := lowerStr l, translated := l ≠ [] && !two }, (refKeyTable.map (·.1)).contains (String.ofList g))

/-- m21convert.py:73-88: the keys of dates. -/
def dateSchemeKeys : List Str :=
  ["CDT".toList, "RRD".toList, "RDT".toList, "MRD".toList, "MPD".toList, "MDT".toList, "ODT".toList, "PDT".toList, "YER".toList, "END".toList]

/-- m21utilities.py:2601-2609. -/
def customDateKeys : List Str := ["CDT".toList, "RDT".toList, "MRD".toList, "MPD".toList, "MDT".toList, "YOY".toList, "END".toList]

/-- `humdrumReferenceKeyToM21MetadataPropertyUniqueName.get(key)`, the empty name being none. -/
def tableName (key : Str) : Option Str :=
  match Dict.get? refKeyTable (String.ofList key) with
  | some n => if n = "" then none else some n.toList
  | none => none

/-- humdrumfile.py:10870-10881. -/
def nameOfKey (key : Str) : Option Str :=
  match tableName key with
  | some n => some n
  | none => if key = "ACO".toList then some "collectionDesignation".toList else none

/-- m21utilities.py:2880-2905 `mdValueEqual`, without the other attributes. -/
def mdValueEqual : MVal → MVal → Bool
  | .text a, .text b => a.data = b.data && a.lang = b.lang
  | a, b => a = b

/-- m21utilities.py:2865-2868, 2915-2918. -/
def addIfNew (md : MdDict) (n : Str) (v : MVal) : MdDict := if (mdValues md n).any (fun w => mdValueEqual w v) then md else mdAdd md n v

/-- music21's `_convertValue`: a text under a name of a contributor becomes a contributor with that role. A text that is no date is left as it is. -/
def convertValue (isPerson : Str → Bool) (n : Str) : MVal → MVal
  | .text t => if isPerson n then .person n [t] else .text t
  | v => v

/-- m21convert.py:3354-3367 `humdrumMetadataValueToM21MetadataValue`. -/
def readValue (date : Bool) (t : MText) : Except PyErr MVal :=
  if date then
    match primFromString t.data with
    | .error e => .error e
    | .ok (some d) => .ok (.date d)
    | .ok none => .ok (.text t)
  else .ok (.text t)

/-- humdrumfile.py:10900-10924: the text of a date with a custom key written anew; `none` when reading it fails. -/
def customDate (s : Str) : Option Str :=
  match primFromString s with
  | .error _ => none
  | .ok (some d) => some (stringFromPrim d)
  | .ok none =>
    match rangeFromString s with
    | .error _ => none
    | .ok (some a, some b) => some (stringFromRange a b)
    | .ok _ => some s

/-- The last cases of the loop: a standard key, or any other. -/
def addCustomRecord (md : MdDict) (k v : Str) (key : Str) (t : MText) (standard : Bool) : MdDict :=
  if standard then
    match keyToOtherRole.get? (String.ofList key) with
    | some role => addIfNew md "otherContributor".toList (.person role.toList [t])
    | none =>
      if key ∈ customDateKeys then
        match customDate t.data with
        | none => md
        | some s => addIfNew md ("humdrum:".toList ++ key) (.text { t with data := s })
      else addIfNew md ("humdrum:".toList ++ key) (.text t)
  else mdAdd md ("raw:".toList ++ k) (.text { data := v })

/-- humdrumfile.py:10860-10937: one record; `isPerson` says under which names music21 has contributors. -/
def addRecord (isPerson : Str → Bool) (md : MdDict) (r : Str × Str) : Except PyErr MdDict :=
  let p := parseItem r.1 r.2
  let key := if p.1 = "MRD".toList then "MDT".toList else p.1
  match nameOfKey key with
  | some n =>
    match readValue ((parseKey r.1).isSome && p.1.take 3 ∈ dateSchemeKeys) p.2.1 with
    | .error e => .error e
    | .ok v => .ok (addIfNew md n (convertValue isPerson n v))
  | none => .ok (addCustomRecord md r.1 r.2 key p.2.1 p.2.2)

/-- The loop. -/
def addRecords (isPerson : Str → Bool) : MdDict → List (Str × Str) → Except PyErr MdDict
  | md, [] => .ok md
  | md, r :: rs =>
    match addRecord isPerson md r with
    | .error e => .error e
    | .ok md' => addRecords isPerson md' rs

/-- The metadata at first (humdrumfile.py:10843-10858). -/
def firstMeta : MdDict := [("software".toList, [.text { data := "converter21".toList }])]

/-- The metadata of a file: its lines, each with whether it is before the first data line. -/
def readMeta (isPerson : Str → Bool) (markName : Str → Str) (file : List (Bool × Str)) : Except PyErr MdDict :=
  addRecords isPerson firstMeta (dropTitle (file.filterMap (fun l => biblioEntry markName l.1 l.2)))

end C21
