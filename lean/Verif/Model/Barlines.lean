import Verif.Model.PyStr
/-
Barline styles: humdrum/gridcommon.py:95-164, humdrum/convert.py:1397-1450, humdrum/m21convert.py:3032-3351, humdrum/measuredata.py:165-201,
humdrum/humgrid.py:1021-1082 and humdrum/humdrumfile.py:1225-1293, 5592-5698.
-/
namespace C21

/-- gridcommon.py:94-112 `MeasureVisualStyle`, in the order of the enumeration. -/
inductive VStyle
  | regular | double | heavyHeavy | heavyLight | final | short | tick | dotted | dashed | heavy | heavyLightHeavy | lightHeavyLight | invisible
  deriving DecidableEq, Repr

/-- The value of the enumeration member. -/
def VStyle.rank : VStyle → Nat
  | regular => 1 | double => 2 | heavyHeavy => 3 | heavyLight => 4 | final => 5 | short => 6 | tick => 7 | dotted => 8 | dashed => 9 | heavy => 10
  | heavyLightHeavy => 11 | lightHeavyLight => 12 | invisible => 13

/-- gridcommon.py:115-120 `MeasureType`. -/
inductive MType
  | notRepeat | backward | forward | both
  deriving DecidableEq, Repr

/-- The value of the enumeration member. -/
def MType.rank : MType → Nat
  | notRepeat => 1 | backward => 2 | forward => 3 | both => 4

/-- The pair that is the value of a `MeasureStyle`. -/
structure MStyle where
  v : VStyle
  m : MType
  deriving DecidableEq, Repr

/-- gridcommon.py:123-158 `MeasureStyle`: the members. -/
def measureStyles : List MStyle :=
  [⟨.double, .notRepeat⟩, ⟨.heavyHeavy, .notRepeat⟩, ⟨.heavyLight, .notRepeat⟩, ⟨.final, .notRepeat⟩, ⟨.short, .notRepeat⟩, ⟨.tick, .notRepeat⟩,
   ⟨.dotted, .notRepeat⟩, ⟨.dashed, .notRepeat⟩, ⟨.invisible, .notRepeat⟩, ⟨.regular, .notRepeat⟩, ⟨.heavy, .notRepeat⟩,
   ⟨.regular, .backward⟩, ⟨.heavy, .backward⟩, ⟨.heavyLight, .backward⟩, ⟨.final, .backward⟩, ⟨.heavyHeavy, .backward⟩, ⟨.double, .backward⟩,
   ⟨.regular, .forward⟩, ⟨.heavy, .forward⟩, ⟨.heavyLight, .forward⟩, ⟨.final, .forward⟩, ⟨.heavyHeavy, .forward⟩, ⟨.double, .forward⟩,
   ⟨.regular, .both⟩, ⟨.heavy, .both⟩, ⟨.heavyLight, .both⟩, ⟨.final, .both⟩, ⟨.heavyHeavy, .both⟩, ⟨.double, .both⟩,
   ⟨.heavyLightHeavy, .both⟩, ⟨.lightHeavyLight, .both⟩]

/-- The types of music21's `Barline`. -/
inductive BarType
  | regular | dotted | dashed | heavy | double | final | heavyLight | heavyHeavy | tick | short | none
  deriving DecidableEq, Repr

/-- The directions of music21's `Repeat`. -/
inductive RepDir
  | start | stop
  deriving DecidableEq, Repr

/-- A music21 barline: the direction of a `Repeat` (none for a plain barline), its type and whether it has a fermata. -/
structure Bar where
  dir : Option RepDir
  type : BarType
  pause : Bool
  deriving DecidableEq, Repr

/-- The side of the measure. -/
inductive Side
  | left | right
  deriving DecidableEq, Repr

/-! ### Writing -/

/-- m21convert.py:3032-3118 `_combineVisualRepeatBothStyles`: the table, entry by entry in the order in which the entries overwrite each other. -/
def comboBoth (a b : VStyle) : VStyle :=
  if a = .regular ∧ b = .heavy then .final
  else if a = .heavy ∧ b = .regular then .heavyLight
  else if a = .final ∧ b = .regular then .lightHeavyLight
  else if a = .regular ∧ b = .heavyLight then .lightHeavyLight
  else if a = .heavyLight ∧ b = .heavy then .heavyLightHeavy
  else if a = .heavy ∧ b = .final then .heavyLightHeavy
  else if a = .final ∧ b = .heavyLight then .lightHeavyLight
  else if a = .heavyLight ∧ b = .final then .heavyLightHeavy
  else if a = .heavyLightHeavy ∨ a = .lightHeavyLight then a
  else if a = b then a
  else if a = .invisible ∨ b = .invisible then .invisible
  else if a = .regular then b
  else if b = .regular then a
  else a

/-- m21convert.py:3166-3171 `getMeasureStyle`: `none` for the KeyError. -/
def getMeasureStyle (v : VStyle) (m : MType) : Option MStyle := if (⟨v, m⟩ : MStyle) ∈ measureStyles then some ⟨v, m⟩ else none

/-- `max` of two visual styles. -/
def vMax (a b : VStyle) : VStyle := if b.rank > a.rank then b else a

/-- `max` of two measure types. -/
def mMax (a b : MType) : MType := if b.rank > a.rank then b else a

/-- m21convert.py:3131-3153 `combineTwoMeasureStyles`: `none` for the KeyError. -/
def combineStyles (curr prev : MStyle) : Option MStyle :=
  if prev.m = .backward then
    if curr.m = .forward then getMeasureStyle (comboBoth prev.v curr.v) .both
    else getMeasureStyle prev.v .backward
  else getMeasureStyle (vMax curr.v prev.v) (mMax curr.m prev.m)

/-- m21convert.py:3173-3185 `measureVisualStyleFromM21BarlineType`. -/
def vStyleOf : BarType → VStyle
  | .regular => .regular
  | .dotted => .dotted
  | .dashed => .regular
  | .heavy => .heavy
  | .double => .double
  | .final => .final
  | .heavyLight => .heavyLight
  | .heavyHeavy => .heavyHeavy
  | .tick => .tick
  | .short => .short
  | .none => .invisible

/-- m21convert.py:3192-3199: the type of a barline. -/
def mTypeOf : Option RepDir → MType
  | none => .notRepeat
  | some .start => .forward
  | some .stop => .backward

/-- m21convert.py:3187-3201 `measureStyleFromM21Barline`: `none` for the KeyError. -/
def styleOfBar : Option Bar → Option MStyle
  | none => some ⟨.regular, .notRepeat⟩
  | some b => getMeasureStyle (vStyleOf b.type) (mTypeOf b.dir)

/-- convert.py:1397-1430 the table of styles; `none` for the KeyError. -/
def styleText : MStyle → Option String
  | ⟨.double, .notRepeat⟩ => some "||"
  | ⟨.heavyHeavy, .notRepeat⟩ => some "!!"
  | ⟨.heavyLight, .notRepeat⟩ => some "!|"
  | ⟨.final, .notRepeat⟩ => some "="
  | ⟨.short, .notRepeat⟩ => some "'"
  | ⟨.tick, .notRepeat⟩ => some "`"
  | ⟨.dotted, .notRepeat⟩ => some "."
  | ⟨.dashed, .notRepeat⟩ => some ":"
  | ⟨.invisible, .notRepeat⟩ => some "-"
  | ⟨.regular, .notRepeat⟩ => some ""
  | ⟨.heavy, .notRepeat⟩ => some "!"
  | ⟨.regular, .backward⟩ => some ":|"
  | ⟨.heavy, .backward⟩ => some ":!"
  | ⟨.heavyLight, .backward⟩ => some ":!|"
  | ⟨.final, .backward⟩ => some ":|!"
  | ⟨.heavyHeavy, .backward⟩ => some ":!!"
  | ⟨.double, .backward⟩ => some ":||"
  | ⟨.regular, .forward⟩ => some "|:"
  | ⟨.heavy, .forward⟩ => some "!:"
  | ⟨.heavyLight, .forward⟩ => some "!|:"
  | ⟨.final, .forward⟩ => some "|!:"
  | ⟨.heavyHeavy, .forward⟩ => some "!!:"
  | ⟨.double, .forward⟩ => some "||:"
  | ⟨.regular, .both⟩ => some ":|:"
  | ⟨.heavy, .both⟩ => some ":!:"
  | ⟨.heavyLight, .both⟩ => some ":!|:"
  | ⟨.final, .both⟩ => some ":|!:"
  | ⟨.heavyHeavy, .both⟩ => some ":!!:"
  | ⟨.double, .both⟩ => some ":||:"
  | ⟨.heavyLightHeavy, .both⟩ => some ":!|!:"
  | ⟨.lightHeavyLight, .both⟩ => some ":|!|:"
  | _ => none

/-- gridcommon.py:167-171 `FermataStyle`. -/
inductive Ferm
  | no | fermata | above | below
  deriving DecidableEq, Repr

/-- convert.py:1437-1442 the table of fermatas. -/
def fermText : Ferm → String
  | .no => ""
  | .fermata => ";"
  | .above => ";>"
  | .below => ";<"

/-- humgrid.py:1152-1161 `getMeasureStyle` and 1163-1172 `getLastBarlineStyle`. -/
def barStyleText (s : MStyle) (f : Ferm) : Option Str := (styleText s).map (fun t => t.toList ++ (fermText f).toList)

/-- humgrid.py:1065-1087 `createBarToken`, once the style is a text. -/
def barToken (num style : Str) : Str :=
  if num ≠ [] then
    if style = ['='] then '=' :: '=' :: num
    else if startsWith style ['=', ';'] then '=' :: '=' :: (num ++ style.drop 1)
    else '=' :: (num ++ style)
  else '=' :: style

/-- humgrid.py:1065-1087 `createBarToken`; `none` for the KeyError. -/
def createBarToken (num : Str) (s : MStyle) (f : Ferm) : Option Str := (barStyleText s f).map (barToken num)

/-- humgrid.py:1021-1054 `addLastBarline`: the token. -/
def lastBarToken (s : MStyle) (f : Ferm) : Option Str := (barStyleText s f).map (fun t => '=' :: t)

/-- m21convert.py:3325-3337 `fermataStyleFromM21Fermata` and 3203-3207: the style of the fermata is compared with a text, which is never equal. -/
def fermOfBar : Option Bar → Ferm
  | none => .no
  | some b => if b.pause then .fermata else .no

/-- m21convert.py:3339-3351 `combineTwoFermataStyles`. -/
def combineFerm (curr prev : Ferm) : Ferm := if curr ≠ .no then curr else if prev ≠ .no then prev else .no

/-- measuredata.py:165-201: the barline between two measures, given the right barline of the first and the left barline of the second. `none` for
the exception. -/
def exportBarline (num : Str) (prevRight currLeft : Option Bar) : Option Str :=
  match styleOfBar currLeft, styleOfBar prevRight with
  | some l, some r =>
    match combineStyles l r with
    | some s => createBarToken num s (combineFerm (fermOfBar currLeft) (fermOfBar prevRight))
    | none => none
  | _, _ => none

/-! ### Reading -/

/-- m21convert.py:3211-3231 `_m21BarlineTypeFromHumdrumString`. -/
def barTypeOfText (s : Str) : BarType :=
  if isInfix ['|', '|'] s then .double
  else if isInfix ['!', '!'] s then .heavyHeavy
  else if isInfix ['!', '|'] s then .heavyLight
  else if isInfix ['|', '!'] s then .final
  else if isInfix ['=', '='] s then .final
  else if isInfix ['\''] s then .short
  else if isInfix ['`'] s then .tick
  else if isInfix ['-'] s then .none
  else if isInfix ['|'] s then .regular
  else if isInfix ['!'] s then .heavy
  else if isInfix ['.'] s then .dotted
  else if isInfix [':'] s then .dashed
  else .regular

/-- `':|' in s or ':!' in s`. -/
def hasEndRepeat (s : Str) : Bool := isInfix [':', '|'] s || isInfix [':', '!'] s

/-- `'|:' in s or '!:' in s`. -/
def hasStartRepeat (s : Str) : Bool := isInfix ['|', ':'] s || isInfix ['!', ':'] s

/-- m21convert.py:3233-3277 `_m21BarlineTypeFromHumdrumRepeatString`; `none` for the exception. -/
def repeatTypeOfText (s : Str) : Side → Option BarType
  | .left =>
    if isInfix [':', '!', '|', '!', ':'] s then some (barTypeOfText ['|', '!', ':'])
    else if isInfix [':', '|', '!', '|', ':'] s then some (barTypeOfText ['!', '|', ':'])
    else if isInfix [':', '|', '|', ':'] s then some (barTypeOfText ['|', '|', ':'])
    else if isInfix [':', '!', ':'] s then some (barTypeOfText ['!', ':'])
    else if isInfix [':', '|', ':'] s then some (barTypeOfText ['|', ':'])
    else if hasStartRepeat s then some (barTypeOfText s)
    else none
  | .right =>
    if isInfix [':', '!', '|', '!', ':'] s then some (barTypeOfText [':', '!', '|'])
    else if isInfix [':', '|', '!', '|', ':'] s then some (barTypeOfText [':', '|', '!'])
    else if isInfix [':', '|', '|', ':'] s then some (barTypeOfText [':', '|', '|'])
    else if isInfix [':', '!', ':'] s then some (barTypeOfText [':', '!'])
    else if isInfix [':', '|', ':'] s then some (barTypeOfText [':', '|'])
    else if hasEndRepeat s then some (barTypeOfText s)
    else none

/-- m21convert.py:3280-3323 `m21BarlineFromHumdrumString`; `none` for the exception. -/
def barOfText (s : Str) : Side → Option Bar
  | .right =>
    if hasEndRepeat s then (repeatTypeOfText s .right).map (fun t => ⟨some .stop, t, false⟩)
    else if hasStartRepeat s then some ⟨none, .regular, false⟩
    else some ⟨none, barTypeOfText s, false⟩
  | .left =>
    if hasStartRepeat s then (repeatTypeOfText s .left).map (fun t => ⟨some .start, t, false⟩)
    else if hasEndRepeat s then some ⟨none, .regular, false⟩
    else some ⟨none, barTypeOfText s, false⟩

/-- humdrumfile.py:1263-1293: the first pass sets the right barline of the measure that ends and the left barline of the one that follows. -/
def firstPassBars (s : Str) : Option (Bar × Option Bar) :=
  if startsWith s ['=', '='] then some (⟨none, .final, false⟩, none)
  else
    match barOfText s .right with
    | none => none
    | some r =>
      if hasStartRepeat s then
        match barOfText s .left with
        | none => none
        | some l => some (r, some l)
      else some (r, none)

/-- humdrumfile.py:5620-5626: the right barline is made again. `Repeat(direction='end')` has the type 'final' in music21. -/
def remadeRight (s : Str) (r : Bar) : Bar := if hasEndRepeat s then ⟨some .stop, .final, false⟩ else r

/-- humdrumfile.py:5628-5635 and 6907-6950 `_addFermata`: a fermata, unless it is invisible. -/
def withFermata (s : Str) (r : Bar) : Bar := if isInfix [';'] s && !isInfix ['y', 'y'] s then { r with pause := true } else r

/-- humdrumfile.py:5686-5697: the left barline is made again. `Repeat(direction='start')` has the type 'heavy-light' in music21. -/
def remadeLeft (s : Str) (l : Option Bar) : Option Bar := if hasStartRepeat s then some ⟨some .start, .heavyLight, false⟩ else l

/-- humdrumfile.py:1225-1293 and 5592-5698: the right barline of the measure that ends with the barline token and the left barline of the measure
that begins with it. `none` for the exception. Simplified: one token per staff, and a measure follows. -/
def importBarline (s : Str) : Option (Bar × Option Bar) :=
  (firstPassBars s).map (fun p => (withFermata s (remadeRight s p.1), remadeLeft s p.2))

end C21
