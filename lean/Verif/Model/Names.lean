import Verif.Model.PyStr
import Verif.Model.PyNum
import Verif.Model.PyDict
/-
shared/m21utilities.py: xml:ids, spelling of contributor roles and the table of reference keys. Letters are ASCII here: roles, class names
and prefixes are identifiers of music21.
-/
namespace C21

/-- m21utilities.py:3916-3920 `alphabet_encode`, the loop: most significant letter first. -/
def encodeLoop : Nat → Nat → Str → Str
  | 0, _, acc => acc
  | fuel + 1, n, acc => if n = 0 then acc else encodeLoop fuel (n / 26) (Char.ofNat (97 + n % 26) :: acc)

/-- m21utilities.py:3911-3920 `alphabet_encode`. The loop ends since the number decreases. -/
def alphabetEncode (n : Nat) : Str := if n = 0 then ['a'] else encodeLoop n n []

/-- The id of an object. -/
inductive ObjId where
  | str (s : Str)
  | int (n : Nat)
deriving DecidableEq

/-- `s.lower()` for ASCII. -/
def lowerStr (s : Str) : Str := s.map Char.toLower

/-- m21utilities.py:3936-3941: the prefix. -/
def addIdPrefix (pre output : Str) : Str :=
  if pre.isEmpty then output
  else if startsWith (lowerStr output) (lowerStr pre) then output
  else pre ++ '-' :: output

/-- m21utilities.py:3907-3941 `makeXmlIdFrom`. `limit` is music21's `minIdNumberToConsiderMemoryLocation`. Integer ids are not negative. -/
def makeXmlId (limit : Nat) (i : ObjId) (pre : Str) : Str :=
  match i with
  | .str s => s
  | .int n => addIdPrefix pre (if n < limit then natStr n else alphabetEncode n)

/-- m21utilities.py:2695-2709 `spaceDelimitedToCamelCase`; the flag is `capitalizeNext`. -/
def spaceToCamelGo : Bool → Str → Str
  | _, [] => []
  | cap, c :: cs =>
    if c = ' ' then spaceToCamelGo true cs
    else (if cap then c.toUpper else c.toLower) :: spaceToCamelGo false cs

def spaceToCamel (s : Str) : Str := spaceToCamelGo false s

/-- m21utilities.py:2711-2719 `camelCaseToSpaceDelimited`. -/
def camelToSpace : Str → Str
  | [] => []
  | c :: cs => if c.isUpper then ' ' :: c.toLower :: camelToSpace cs else c :: camelToSpace cs

/-- m21utilities.py:2483-2591 `humdrumReferenceKeyToM21MetadataPropertyUniqueName`. -/
def refKeyTable : List (String × String) :=
  [("COM", "composer"), ("COA", "attributedComposer"), ("COS", "suspectedComposer"), ("COL", "composerAlias"),
   ("COC", "composerCorporate"), ("CDT", ""), ("CBL", ""), ("CDL", ""), ("CNT", ""), ("LYR", "lyricist"),
   ("LIB", "librettist"), ("LAR", "arranger"), ("LOR", "orchestrator"), ("TXO", "textOriginalLanguage"),
   ("TXL", "textLanguage"), ("TRN", "translator"), ("RTL", ""), ("RMM", ""), ("RC#", ""), ("RRD", "dateIssued"), ("RLC", ""),
   ("RNP", "producer"), ("RDT", ""), ("RT#", ""), ("MGN", ""), ("MPN", ""), ("MPS", ""), ("MRD", ""), ("MLC", ""),
   ("MCN", "conductor"), ("MPD", ""), ("MDT", ""), ("OTL", "title"), ("OTP", "popularTitle"), ("OTA", "alternativeTitle"),
   ("OPR", "parentTitle"), ("OAC", "actNumber"), ("OSC", "sceneNumber"), ("OMV", "movementNumber"), ("OMD", "movementName"),
   ("OPS", "opusNumber"), ("ONM", "number"), ("OVM", "volumeNumber"), ("ODE", "dedicatedTo"), ("OCO", "commissionedBy"),
   ("OCL", "transcriber"), ("ONB", ""), ("ODT", "dateCreated"), ("OCY", "countryOfComposition"),
   ("OPC", "localeOfComposition"), ("GTL", "groupTitle"), ("GAW", "associatedWork"), ("GCO", "collectionDesignation"),
   ("PUB", ""), ("PED", ""), ("PPR", "firstPublisher"), ("PDT", "dateFirstPublished"), ("PTL", "publicationTitle"),
   ("PPP", "placeFirstPublished"), ("PC#", "publishersCatalogNumber"), ("SCT", "scholarlyCatalogAbbreviation"),
   ("SCA", "scholarlyCatalogName"), ("SMS", "manuscriptSourceName"), ("SML", "manuscriptLocation"),
   ("SMA", "manuscriptAccessAcknowledgement"), ("YEP", "electronicPublisher"), ("YEC", "copyright"),
   ("YER", "electronicReleaseDate"), ("YEM", ""), ("YEN", ""), ("YOR", ""), ("YOO", "originalDocumentOwner"), ("YOY", ""),
   ("YOE", "originalEditor"), ("EED", "electronicEditor"), ("ENC", "electronicEncoder"), ("END", ""), ("EMD", ""), ("EEV", ""),
   ("EFL", ""), ("EST", ""), ("VTS", ""), ("ACO", ""), ("AFR", ""), ("AGN", ""), ("AST", ""), ("AMD", ""), ("AMT", ""),
   ("AIN", ""), ("ARE", ""), ("ARL", ""), ("HAO", ""), ("HTX", ""), ("RLN", ""), ("RNB", ""), ("RWB", "")]

/-- m21utilities.py:2593-2596: the inverse, for the keys that have a name. -/
def uniqueNameToKey : Dict String String := (refKeyTable.filter (fun p => p.2 ≠ "")).foldl (fun d p => Dict.set d p.2 p.1) []

/-- m21utilities.py `humdrumReferenceKeyToM21OtherContributorRole`. -/
def keyToOtherRole : Dict String String :=
  [("MPN", "performer"), ("MPS", "suspected performer"), ("PED", "publication editor")]

/-- m21utilities.py `m21OtherContributorRoleToHumdrumReferenceKey`. -/
def otherRoleToKey : Dict String String :=
  [("performer", "MPN"), ("suspected performer", "MPS"), ("suspectedPerformer", "MPS"), ("source editor", "PED"),
   ("sourceEditor", "PED"), ("publication editor", "PED"), ("publicationEditor", "PED"), ("poet", "LYR")]

/-- One lookup of `contributorRoleToHumdrumReferenceKey`: both tables (a missing or empty key is none). -/
def roleLookup (role : Str) : Option String :=
  match uniqueNameToKey.get? (String.ofList role) with
  | some k => some k
  | none => otherRoleToKey.get? (String.ofList role)

/-- m21utilities.py:2651-2693 `contributorRoleToHumdrumReferenceKey`. -/
def roleKey (role : Str) : Option String :=
  match roleLookup role with
  | some k => some k
  | none => roleLookup (if role.contains ' ' then spaceToCamel role else camelToSpace role)

end C21
