{"id": "C01", "title": "Hierarchical parameter store behaves like a map", "statement": "After any sequence of setValue/deleteValue calls on a HumHash, getValue of a (namespace1, namespace2, key) address returns the value most recently set there and not since deleted (None if there is none); no operation on one address ever changes what another address returns; isDefined agrees with getValue.", "quantifier": "every finite history of setValue/deleteValue operations and every address, through every accepted calling form", "why_tests_cant": "Aliasing between nested dictionaries, or an address form that is resolved differently by the writer and the reader, only shows up for particular histories; tests sample a handful.", "anchors": ["converter21/humdrum/humhash.py: HumHash.setValue, getValue, isDefined, deleteValue"]}
{"id": "C02", "title": "Address forms of the parameter store are interchangeable", "statement": "The key forms \"ns1:ns2:key\", (ns, \"ns2:key\") and (ns1, ns2, key) address the same cell for every operation, and a one-part or two-part namespace argument accepted by the query functions (getKeys, hasParameters, getParameterCount) selects the same cells that setValue with the same namespaces wrote.", "quantifier": "all namespaces and keys free of colons, all stores", "why_tests_cant": "The normalisation depends on the number of colons and on which arguments are empty; the combinations cannot be enumerated by example.", "anchors": ["converter21/humdrum/humhash.py: getKeyTuple, fixupNamespace1Namespace2Key, fixupNamespace1Namespace2, getKeys, hasParameters, getParameterCount"]}
{"id": "C03", "title": "Origins follow values in the parameter store", "statement": "setOrigin on an existing parameter is what getOrigin returns until the parameter is set again or deleted; setting the origin of an absent parameter has no observable effect; setValue on one address never changes the origin of another.", "quantifier": "every history of set/delete/setOrigin operations", "why_tests_cant": "History-dependent.", "anchors": ["converter21/humdrum/humhash.py: HumHash.setOrigin, getOrigin"]}
{"id": "C04", "title": "Layout parameter strings round-trip through HumParamSet", "statement": "Reading \"!!LO:ns2:k1=v1:k2=v2...\" yields exactly those parameters in order (a bare key meaning \"true\"), whatever the number of parameters, and a value containing a colon that was escaped as &colon; is read back with the colon.", "quantifier": "all lists of parameter names/values over arbitrary characters (subject to the delimiter rules)", "why_tests_cant": "Escaping is a property of every string, not of samples.", "anchors": ["converter21/humdrum/humparamset.py: HumParamSet.readString, addParameter, setParameter", "converter21/humdrum/m21convert.py: M21Convert._cleanSpacesAndColons"]}
{"id": "C05", "title": "Every duration survives the trip to **recip and back", "statement": "For every non-negative rational duration d, recipToDuration(durationToRecip(d)) = d.", "quantifier": "all non-negative rationals", "why_tests_cant": "Infinite domain with special cases (breves, one/two/three dots, n%m) that overlap.", "anchors": ["converter21/humdrum/convert.py: Convert.durationToRecip, recipToDuration"]}
{"id": "C06", "title": "recipToDuration depends only on its arguments", "statement": "The value returned by recipToDuration(recip, scale) is a function of recip and scale: it does not depend on what was converted before (the class-level cache is invisible), and scale multiplies the result.", "quantifier": "all call histories", "why_tests_cant": "A cache bug needs a particular earlier call; each test starts from its own history.", "anchors": ["converter21/humdrum/convert.py: Convert.recipToDuration, _recipToDurationCache"]}
{"id": "C07", "title": "Augmentation dots follow the notational rule", "statement": "A rhythm with n dots lasts 2 - 1/2^n times the undotted rhythm, for any n, for integer, breve (\"0\", \"00\", ...) and n%m rhythms; the no-dots conversion gives exactly the undotted rhythm.", "quantifier": "all base rhythms and all dot counts", "why_tests_cant": "Unbounded dot counts and rhythms.", "anchors": ["converter21/humdrum/convert.py: Convert.recipToDuration, recipToDurationNoDots"]}
{"id": "C08", "title": "Base-40 pitch numbers and **kern pitch strings are inverse", "statement": "For every pitch spelling (letter, octave, at most two sharps or flats) the **kern string converts to a base-40 number which converts back to that string, and distinct spellings get distinct numbers; the exception slots of the system are reported as errors, not as a wrong pitch.", "quantifier": "all letters, octaves 0..12, accidentals -2..2; all integers for the reverse direction", "why_tests_cant": "Five unused slots per octave and case-dependent octave counting break at specific residues.", "anchors": ["converter21/humdrum/convert.py: kernToBase40, base40ToKern, base40ToDiatonic, base40ToAccidental, kernToBase40PC, kernToOctaveNumber"]}
{"id": "C09", "title": "Diatonic, base-40, base-12 and MIDI numbers agree", "statement": "The octave, step and alteration recovered from a **kern note determine its base-7, base-12 and MIDI numbers by the usual arithmetic (12*(octave+1) + step semitones + alteration), for every octave.", "quantifier": "all pitch spellings", "why_tests_cant": "Infinite family; off-by-one octave errors appear only in some registers.", "anchors": ["converter21/humdrum/convert.py: kernToMidiNoteNumber, kernToBase12PC, kernToBase7, kernToDiatonicPC, kernToAccidentalCount"]}
{"id": "C10", "title": "Transposition strings round-trip", "statement": "For every pair of integers (diatonic, chromatic), parsing the string produced for *Tr/*ITr gives back the pair.", "quantifier": "all pairs of integers", "why_tests_cant": "Infinite domain, signs.", "anchors": ["converter21/humdrum/convert.py: transToDiatonicChromatic, diatonicChromaticToTrans"]}
{"id": "C11", "title": "Text written is text read (line level)", "statement": "Splitting a Humdrum line into tokens and rebuilding the line from its tokens gives the original text, including runs of tabs between tokens; tokens never contain tabs and are never empty unless the line is.", "quantifier": "all line strings", "why_tests_cant": "Tab-run bookkeeping must be right for every arrangement.", "anchors": ["converter21/humdrum/humdrumline.py: createTokensFromLine, createLineFromTokens"]}
{"id": "C12", "title": "Text written is text read (file level)", "statement": "str() of a file read from a string is the string (up to the final newline), for every content.", "quantifier": "all strings", "why_tests_cant": "All inputs.", "anchors": ["converter21/humdrum/humdrumfilebase.py: readString, __str__"]}
{"id": "C13", "title": "Every line falls in exactly one structural class", "statement": "Each line is exactly one of: empty, global comment/reference, local comment, interpretation, barline, data; and the derived predicates (isData, isInterpretation, isAllNull, hasSpines, manipulator...) agree with that class.", "quantifier": "all line strings", "why_tests_cant": "Classification is by several overlapping prefix tests.", "anchors": ["converter21/humdrum/humdrumline.py: isComment, isCommentGlobal, isCommentLocal, isReference, isInterp, isBarline, isData, hasSpines"]}
{"id": "C14", "title": "Reference records give their key and value", "statement": "For a reference record \"!!!key: value\" the key and value accessors return key and value; likewise for universal records \"!!!!key: value\".", "quantifier": "all keys without colon and all values", "why_tests_cant": "All strings.", "anchors": ["converter21/humdrum/humdrumline.py: referenceKey, referenceValue, globalReferenceKey/Value, universalReferenceKey/Value, isUniversalReference"]}
{"id": "C15", "title": "Spine bookkeeping keeps one descriptor per token", "statement": "Processing manipulators (*^, *v, *x, *+, *-) line by line, the number of active spines after a line is the number the Humdrum standard prescribes, so a file whose lines have the prescribed token counts is accepted and a file where some line does not is rejected with an error.", "quantifier": "all files (any number of lines, any nesting of manipulators)", "why_tests_cant": "Splits and merges nest without bound.", "anchors": ["converter21/humdrum/humdrumfilebase.py: analyzeSpines, adjustSpines"]}
{"id": "C16", "title": "Split followed by merge restores the spine", "statement": "A spine split into any number of sub-spines by any nesting of splits and then merged back with a single *v group has its original spine description, and a merge never mixes up tracks.", "quantifier": "all split trees", "why_tests_cant": "Nesting is unbounded.", "anchors": ["converter21/humdrum/humdrumfilebase.py: adjustSpines, getMergedSpineInfo"]}
{"id": "C17", "title": "Next/previous token links are mutual", "statement": "After linking adjacent lines, token b is a next token of a if and only if a is a previous token of b; every token of a spined line (other than terminators/starts) has at least one neighbour on each side, and linked tokens other than at merges belong to the same track.", "quantifier": "all pairs of adjacent spined lines with consistent counts, hence all files", "why_tests_cant": "Depends on the arrangement of manipulators.", "anchors": ["converter21/humdrum/humdrumfilebase.py: stitchLinesTogether, analyzeLinks", "converter21/humdrum/humdrumtoken.py: makeForwardLink, makeBackwardLink"]}
{"id": "C18", "title": "Sub-track numbering is consistent", "statement": "On every line, the tokens of each track are numbered 1..n left to right with n the number of tokens of that track (0 when n = 1).", "quantifier": "all lines", "why_tests_cant": "All layouts.", "anchors": ["converter21/humdrum/humdrumline.py: analyzeTracks", "converter21/humdrum/humaddress.py: HumAddress.subTrack"]}
{"id": "C19", "title": "Line times telescope", "statement": "After rhythm analysis each line's start time plus its duration is the start time of the next line, the durations of all lines sum to the score duration, start times never decrease, and no duration is negative.", "quantifier": "all sequences of line start times the analysis can produce", "why_tests_cant": "All inputs.", "anchors": ["converter21/humdrum/humdrumfilestructure.py: assignLineDurations, fillInMissingStartTimes, scoreDuration"]}
{"id": "C20", "title": "Position in the measure is measured from the last barline", "statement": "For every line, durationFromBarline is the time since the last barline (or the beginning), durationToBarline is the time to the next barline (or the end), and their sum is the barline-to-barline duration.", "quantifier": "all sequences of barlines and durations", "why_tests_cant": "All inputs.", "anchors": ["converter21/humdrum/humdrumfilestructure.py: analyzeMeter"]}
{"id": "C21", "title": "Null lines get interpolated times strictly between their neighbours", "statement": "A run of data lines with no rhythmic token between two timed lines is given start times that partition the interval equally and stay between the neighbours, and lines whose time was already known are not changed.", "quantifier": "all runs of lines", "why_tests_cant": "All lengths.", "anchors": ["converter21/humdrum/humdrumfilestructure.py: analyzeNullLineRhythms, fillInMissingStartTimes"]}
{"id": "C22", "title": "Ticks per quarter note make every duration integral", "statement": "tpq() is the least positive integer t such that t*d is an integer for every duration d occurring in the file.", "quantifier": "all sets of durations", "why_tests_cant": "Number-theoretic over arbitrary fractions.", "anchors": ["converter21/humdrum/humdrumfilestructure.py: tpq", "converter21/humdrum/convert.py: getLcm"]}
{"id": "C23", "title": "Line numbers stay correct under insertion", "statement": "After any sequence of appendLine/insertLine, the line at index i reports lineIndex i and the other lines keep their relative order.", "quantifier": "all sequences of insertions", "why_tests_cant": "History-dependent.", "anchors": ["converter21/humdrum/humdrumfilebase.py: appendLine, insertLine"]}
{"id": "C24", "title": "Token property caches never go stale", "statement": "Whatever sequence of queries, text changes and data-type changes is made on a token, each cached query answers what an uncached evaluation on the current text and type would answer.", "quantifier": "all interleavings of queries and mutations", "why_tests_cant": "Stale caches need a particular history.", "anchors": ["converter21/humdrum/humdrumtoken.py: cache slots, text setter, isNote, isRest, isNull, isData"]}
{"id": "C25", "title": "Chord notes can be read and replaced independently", "statement": "The sub-tokens of a token are its space-separated parts; replacing sub-token i changes exactly that one, and out-of-range replacement leaves the token unchanged or is reported.", "quantifier": "all token texts and indices", "why_tests_cant": "All strings.", "anchors": ["converter21/humdrum/humdrumtoken.py: subtokens, subtokenCount, replaceSubtoken"]}
{"id": "C26", "title": "Slur matching is a proper bracket matching", "statement": "Within a layer every slur start is matched with at most one later slur end and vice versa, matched pairs nest, an end is unmatched only if no start is open, and every start never closed is reported hanging.", "quantifier": "all sequences of opens and closes", "why_tests_cant": "All arrangements.", "anchors": ["converter21/humdrum/humdrumfilecontent.py: analyzeSpineSlursOrPhrases, linkSlurOrPhraseEndpoints"]}
{"id": "C27", "title": "Phrase marks are analysed like slurs", "statement": "Phrase analysis matches { with } by the same rule as slur analysis matches ( with ), independently of any slurs present.", "quantifier": "all token sequences", "why_tests_cant": "All inputs.", "anchors": ["converter21/humdrum/humdrumfilecontent.py: analyzeSpineSlursOrPhrases"]}
{"id": "C28", "title": "Linked ties join equal pitches without skipping", "statement": "In the linked-tie analysis each tie end is joined to the most recent still-open tie start of the same pitch in the track, a middle (_) both closes and opens, and no start is joined twice.", "quantifier": "all sequences of tie marks", "why_tests_cant": "All arrangements.", "anchors": ["converter21/humdrum/humdrumfilecontent.py: generateLinkedTieStartsAndEnds"]}
{"id": "C29", "title": "Accidentals are printed exactly when needed", "statement": "A note gets a visual accidental iff its alteration differs from the alteration currently in force for that staff position (last printed in the measure, else the key signature), so that reading the printed accidentals back recovers every alteration.", "quantifier": "all sequences of notes, barlines and key signatures in a spine", "why_tests_cant": "All sequences.", "anchors": ["converter21/humdrum/humdrumfilecontent.py: analyzeKernAccidentals, fillKeySignature, resetDiatonicStatesWithKeySignature"]}
{"id": "C30", "title": "Rests are placed on a staff line or space consistently", "statement": "A vertically positioned rest is always displaced by an even number of staff steps from the middle line, at most one step from the notated position.", "quantifier": "all clefs, pitches and durations", "why_tests_cant": "All integers.", "anchors": ["converter21/humdrum/humdrumfilecontent.py: _checkRestForVerticalPositioning"]}
{"id": "C31", "title": "Spine color applies to its own spine", "statement": "A *color interpretation in one spine changes the color of later notes in that spine (and sub-spine) only.", "quantifier": "all files with color interpretations", "why_tests_cant": "Aliasing needs two spines and an order.", "anchors": ["converter21/humdrum/humdrumfilecontent.py: initializeSpineColor, setSpineColorFromColorInterpToken"]}
{"id": "C32", "title": "RDF signifier tables stay aligned", "statement": "After reading any sequence of RDF records, every text mark has a color, every note mark has a color and a direction, and every editorial accidental signifier has a type at the same index.", "quantifier": "all sequences of RDF records", "why_tests_cant": "Parallel lists updated in separate branches.", "anchors": ["converter21/humdrum/humsignifiers.py: HumSignifiers.generateKnownInfo"]}
{"id": "C33", "title": "Exported RDF signifiers are unambiguous", "statement": "Whatever marks a score needs, two different RDF definitions are never given the same signifier character, the same definition always gets the same character, and a reserved character is used only when every unreserved one is taken.", "quantifier": "all request sequences and all reserved sets", "why_tests_cant": "Depends on the order of requests.", "anchors": ["converter21/humdrum/humdrumwriter.py: _chosenSignifierForRDFDefinition"]}
{"id": "C34", "title": "Grid measures stay ordered by time", "statement": "After any sequence of slice additions at arbitrary timestamps, the data slices of a measure are in non-decreasing timestamp order with at most one note slice per timestamp, and no previously added token is lost or overwritten by an addition at another time or voice.", "quantifier": "all sequences of additions", "why_tests_cant": "Order of insertion matters.", "anchors": ["converter21/humdrum/gridmeasure.py: addDataToken, addTokenOfSliceType", "converter21/humdrum/humdrumwriter.py: insertSliceByTimestamp"]}
{"id": "C35", "title": "A token put in the grid is the token found there", "statement": "Adding a token at (part, staff, voice) makes exactly that cell hold it, growing the staff as needed and leaving every other cell as it was; positions outside the parts/staves of the slice are errors.", "quantifier": "all grids, positions, tokens", "why_tests_cant": "All shapes.", "anchors": ["converter21/humdrum/gridslice.py: addToken", "converter21/humdrum/gridstaff.py: setTokenLayer, setNullTokenLayer", "converter21/humdrum/gridside.py: setVerse, getVerse"]}
{"id": "C36", "title": "Every exported line has one token per spine", "statement": "For every slice, the exported line has exactly as many tokens as the sum over parts and staves of voices plus side spines, the same for adjacent lines without manipulators.", "quantifier": "all grids", "why_tests_cant": "All shapes.", "anchors": ["converter21/humdrum/gridslice.py: transferTokens, transferSides"]}
{"id": "C37", "title": "Inserted spine manipulators produce exactly the needed spines", "statement": "Between two adjacent lines with v1 and v2 voices in a staff, the manipulator line(s) inserted by the exporter consume v1 spines and produce v2, each inserted line having as many tokens as the spines it is applied to.", "quantifier": "all voice counts in all staves of all parts", "why_tests_cant": "Unbounded counts; interactions between staves.", "anchors": ["converter21/humdrum/humgrid.py: manipulatorCheckTwoSlices, cleanupManipulators, adjustExpansionsInStaff, checkManipulatorContract, transferOtherParts"]}
{"id": "C38", "title": "Pending octave-line and pedal stops are emitted exactly once", "statement": "A stop stored for (part, staff, time) is returned by the first pop at that address and time, in the order stored, never twice, and pops for other addresses or times do not disturb it.", "quantifier": "all interleavings of stores and pops", "why_tests_cant": "History-dependent.", "anchors": ["converter21/humdrum/humdrumwriter.py: storePendingOttavaOrPedalStops, popPendingOttavaOrPedalStopsAtTime"]}
{"id": "C39", "title": "Section names generated for repeat endings are all different", "statement": "The sequence of section names A, B, ..., Z, AA, BB, ... never repeats and name generation never fails on a name it produced.", "quantifier": "every number of sections", "why_tests_cant": "Unbounded sequence.", "anchors": ["converter21/humdrum/humdrumwriter.py: _insertRepeatBracketSlices.incrementName"]}
{"id": "C40", "title": "Splitting a duration into notatable pieces preserves it", "statement": "The list of note values returned for a quarter length sums to it, each piece is a power of two with 0-3 dots (or the list is just the original when impossible), and splitting at a crossing point gives two lists summing to the two sides.", "quantifier": "all rational quarter lengths and crossing points", "why_tests_cant": "All rationals.", "anchors": ["converter21/shared/m21utilities.py: getPowerOfTwoQuarterLengthsWithDotsAddingTo, getPowerOfTwoDurationsWithDotsAddingToAndCrossing"]}
{"id": "C41", "title": "Dots are recognised exactly", "statement": "computeDurationNoDotsAndNumDots(d) = (b, n) means b is a power of two and d = b*(2-1/2^n), with n the least such number in 0..3, and None exactly when there is none.", "quantifier": "all positive rationals", "why_tests_cant": "All rationals.", "anchors": ["converter21/shared/m21utilities.py: isPowerOfTwo, isPowerOfTwoWithDots, computeDurationNoDotsAndNumDots"]}
{"id": "C42", "title": "xml:ids generated from object ids never collide", "statement": "Two objects with different integer ids get different xml:ids, whatever their prefixes.", "quantifier": "all pairs of ids and prefixes", "why_tests_cant": "Infinite domain.", "anchors": ["converter21/shared/m21utilities.py: makeXmlIdFrom"]}
{"id": "C43", "title": "Humdrum dates round-trip", "statement": "A date object written as a Humdrum date string and parsed back is the same date (all fields and error marks).", "quantifier": "all dates", "why_tests_cant": "Optional fields and error marks combine.", "anchors": ["converter21/shared/m21utilities.py: _stringFromDate, _dateFromString, stringFromM21DateObject, m21DatePrimitiveFromString"]}
{"id": "C44", "title": "ISO dates round-trip", "statement": "A date written as an ISO date and parsed back is the same date.", "quantifier": "all dates with or without time", "why_tests_cant": "Optional fields.", "anchors": ["converter21/shared/m21utilities.py: isoDateFromM21Date, m21DateFromIsoDate"]}
{"id": "C45", "title": "Contributor role spelling conversion is faithful", "statement": "Converting a space-delimited lower-case role to camelCase and back gives the role, and conversely.", "quantifier": "all role strings", "why_tests_cant": "All strings.", "anchors": ["converter21/shared/m21utilities.py: spaceDelimitedToCamelCase, camelCaseToSpaceDelimited"]}
{"id": "C46", "title": "Barline styles survive export and import", "statement": "Every measure style that can be exported is read back from its barline text as the same barline on both sides.", "quantifier": "all measure styles, all measure numbers", "why_tests_cant": "Substring-based recognition.", "anchors": ["converter21/humdrum/convert.py: measureStyleToHumdrumBarlineStyleStr", "converter21/humdrum/m21convert.py: m21BarlineFromHumdrumString, combineTwoMeasureStyles", "converter21/humdrum/humgrid.py: createBarToken"]}
{"id": "C47", "title": "Combining barline styles never fails", "statement": "combineTwoMeasureStyles succeeds for every pair of styles a score can present, yields a repeat-both style iff a backward repeat meets a forward repeat, and never loses a repeat.", "quantifier": "all pairs of measure styles", "why_tests_cant": "Table completeness.", "anchors": ["converter21/humdrum/m21convert.py: combineTwoMeasureStyles, getMeasureStyle", "converter21/humdrum/gridcommon.py: MeasureStyle"]}
{"id": "C48", "title": "Exported text cannot break the line structure", "statement": "Whatever text a score contains, the text put in a layout parameter has no tab, newline, or bare colon, so the exported token stays one token with the intended parameters.", "quantifier": "all strings", "why_tests_cant": "All inputs.", "anchors": ["converter21/humdrum/m21convert.py: _cleanSpacesAndColons, textLayoutParameterFromM21Pieces"]}
{"id": "C49", "title": "Tempo text conversion is total", "statement": "translateSMUFLNotesToNoteNames returns for every input text, with text containing no note glyph unchanged.", "quantifier": "all strings", "why_tests_cant": "All inputs.", "anchors": ["converter21/humdrum/m21convert.py: translateSMUFLNotesToNoteNames"]}
{"id": "C50", "title": "Key signatures survive import and export", "statement": "A standard key signature of n sharps/flats exports to a *k[] token which imports as n; a non-standard key signature imports with its altered pitches.", "quantifier": "all key signatures the format can express", "why_tests_cant": "Table completeness and string slicing.", "anchors": ["converter21/humdrum/m21convert.py: m21KeySignature, keySigTokenFromM21KeySignature"]}
{"id": "C51", "title": "Tremolo expansion fills the note exactly", "statement": "Expanding a tremolo of note value v on a note of duration d yields notes whose durations sum to d, placed at start + k*(4/v), with all of them inside the original duration.", "quantifier": "all durations and tremolo values", "why_tests_cant": "All rationals.", "anchors": ["converter21/humdrum/humdrumtools.py: ToolTremolo.processFile, expandTremolo, expandFingerTremolo"]}
{"id": "C52", "title": "Exported rhythm values are faithful", "statement": "For every duration the recip string chosen by the exporter denotes that duration (including inside tuplets, where the exporter re-spells power-of-two values).", "quantifier": "all durations, tuplet ratios and dot counts", "why_tests_cant": "All rationals.", "anchors": ["converter21/humdrum/m21convert.py: kernRecipFromM21Duration", "converter21/humdrum/gridslice.py: _createRecipTokenFromDuration"]}
{"id": "C53", "title": "System decoration mentions every staff exactly once", "statement": "The system-decoration string built from a staff-group tree lists each staff of the tree exactly once, with balanced brackets.", "quantifier": "all staff-group trees", "why_tests_cant": "Recursive structure.", "anchors": ["converter21/humdrum/humdrumwriter.py: _appendRecursiveDecoString"]}
{"id": "C54", "title": "Rhythmic scaling state counts active tracks", "statement": "During *rscale analysis the active-track counter equals the number of tracks whose current scale is not 1, so scaling is applied iff some track is scaled.", "quantifier": "all sequences of rscale interpretations", "why_tests_cant": "History-dependent counter.", "anchors": ["converter21/humdrum/humdrumfilecontent.py: analyzeRScale"]}
{"id": "C55", "title": "Mensural durations follow the mensuration", "statement": "The duration of a mensural note is determined by its note shape, perfection mark and the mensuration levels by the standard multiplication, and the no-dots variant ignores dots.", "quantifier": "all rhythm symbols and levels", "why_tests_cant": "Combinatorial.", "anchors": ["converter21/humdrum/convert.py: mensToDuration, mensToDurationNoDots"]}
{"id": "C56", "title": "Parameters linked to a token stay in file order without repetition", "statement": "After linking any set of parameter tokens in any order to a token, the linked list is in increasing line order and has no duplicates.", "quantifier": "all orders of linking", "why_tests_cant": "Order-dependent.", "anchors": ["converter21/humdrum/humdrumtoken.py: addLinkedParameterSet"]}
{"id": "C57", "title": "Text exported for text repetition marks is bracketed", "statement": "In *ij/*Xij analysis every begin mark is followed by exactly one end mark, and tokens outside *ij...*Xij are never marked.", "quantifier": "all token sequences", "why_tests_cant": "All sequences.", "anchors": ["converter21/humdrum/humdrumfilecontent.py: analyzeTextRepetition"]}
{"id": "C58", "title": "Clef baselines", "statement": "For every clef shape, line and octave mark in the clef table, the staff's bottom-line pitch is the clef's reference pitch lowered by two diatonic steps per line and shifted by whole octaves for octave marks; any other clef is treated as treble.", "quantifier": "all clef shapes, lines, octave marks; all other clef names", "why_tests_cant": "A wrong entry in the table shows only on scores using that clef.", "anchors": ["converter21/humdrum/convert.py: CLEF_TO_BASELINE_PITCH, kernClefToBaseline"]}
{"id": "C59", "title": "Spine ends are all recorded", "statement": "After reading a file, the list of spine ends is exactly the file's terminator tokens in order, and the ends recorded for a track are the terminators of that track.", "quantifier": "all accepted files", "why_tests_cant": "Every arrangement of splits, merges and terminations.", "anchors": ["converter21/humdrum/humdrumfilebase.py: adjustSpines, spineStopList, trackEnd, trackEndCount"]}
{"id": "C60", "title": "Every note starts when what precedes it in its spine ends", "statement": "If rhythm analysis accepts a file, every token of a rhythmic spine is reached exactly when the tokens before it in the spine end, the first tokens at time 0, and all notes on a line are reached at the time of the line.", "quantifier": "all accepted files, all arrangements of splits and merges", "why_tests_cant": "Every combination of durations and spine paths.", "anchors": ["converter21/humdrum/humdrumfilestructure.py: analyzeRhythm, prepareDurations, setLineDurationFromStart"]}
{"id": "C61", "title": "A consistently timed file is analysed with its times", "statement": "If the durations of a file are consistent (there is a time for every line, in order, such that following a spine takes the durations of its notes and notes stand on lines of their time), rhythm analysis succeeds and gives every line with notes that time, and the times of all lines are in order.", "quantifier": "all files that have a consistent timing, of any length and number of spines", "why_tests_cant": "Every consistent file.", "anchors": ["converter21/humdrum/humdrumfilestructure.py: analyzeRhythm, prepareDurations, setLineDurationFromStart, analyzeNullLineRhythms, fillInMissingStartTimes"]}
{"id": "C62", "title": "Spines that begin later are timed from the lines they meet", "statement": "A spine that begins after the start of the file (added with *+) is timed backwards from the first line it meets whose time is already known: its first token starts at that line's time less the durations passed on the way, and its later tokens follow as in any other spine; if no such line exists the file is rejected.", "quantifier": "every token graph, every set of already timed lines, every starting token", "why_tests_cant": "The walk is over an arbitrary graph of tokens with arbitrary durations.", "anchors": ["converter21/humdrum/humdrumfilestructure.py:HumdrumFileStructure.analyzeRhythmOfFloatingSpine"]}
{"id": "C63", "title": "Exported RDF records tell the importer what the exporter meant", "statement": "When a score is exported, the RDF records at its end, read back, give every note carrying one of the color marks the color the exporter gave that mark, give no color to a note without marks, and identify each editorial accidental sign with its kind and the signs for linked, cue size, above and below.", "quantifier": "all sequences of definitions an export asks for, all reserved signifiers, all colors", "why_tests_cant": "The colors and the order of requests are unbounded, and the meaning of a record depends on any word contained in any color.", "anchors": ["converter21/humdrum/humdrumwriter.py: _addFooterRecords, _chosenSignifierForRDFDefinition", "converter21/humdrum/humsignifiers.py: HumSignifiers.addSignifier, generateKnownInfo"]}
{"id": "C64", "title": "Reference keys and contributor roles are found again", "statement": "Writing a metadata item under its Humdrum reference key and reading the record back finds the item's own name or role; no two items share a key.", "quantifier": "all entries of the tables and all role spellings", "why_tests_cant": "The tables are inverted by a program; an ambiguous entry shows only for the item concerned.", "anchors": ["converter21/shared/m21utilities.py: humdrumReferenceKeyToM21MetadataPropertyUniqueName, m21MetadataPropertyUniqueNameToHumdrumReferenceKey, contributorRoleToHumdrumReferenceKey"]}
{"id": "C65", "title": "Export of repeat brackets never fails", "statement": "For every sequence of measures and of repeat-bracket flags, section labels are produced for every measure and the section names used are exactly an initial part of A, B, ..., Z, AA, BB, ...", "quantifier": "all sequences of measures and all combinations of flags", "why_tests_cant": "State machine over unbounded sequences.", "anchors": ["converter21/humdrum/humdrumwriter.py: _insertRepeatBracketSlices"]}
{"id": "C66", "title": "Repeat endings survive export and import", "statement": "For every sequence of measures without bracket and of repeat brackets, reading the section names that are written puts each measure into the bracket it was in, with the number of that bracket.", "quantifier": "all sequences of segments, all lengths and names", "why_tests_cant": "Unbounded sequences; writer and reader are different state machines.", "anchors": ["converter21/humdrum/humdrumwriter.py: _insertRepeatBracketSlices", "converter21/humdrum/humdrumfile.py: _prepareSections, _setupSystemMeasures"]}
{"id": "C67", "title": "Each layout comment is linked to the next token below it", "statement": "After analysis, a token that can have layout parameters is linked to exactly the layout comments of its strand, and the global layout comments, that come after the previous such token (line) and before it, in file order, without those marked ignore; analysing again changes nothing.", "quantifier": "all strands, all sequences of lines", "why_tests_cant": "Depends on whole-file sequences and on running the analysis twice.", "anchors": ["converter21/humdrum/humdrumfilestructure.py: analyzeGlobalParameters, processLocalParametersForStrand", "converter21/humdrum/humdrumtoken.py: addLinkedParameterSet"]}
{"id": "C68", "title": "Staff groups survive export and import of the system decoration", "statement": "If the staff groups of a score are nested or disjoint, have different staves, and together cover all its staves (at least two), then exporting the system decoration and importing it gives staff groups with the same symbols, through-barlines and staves (a line has no sign and is read as no symbol; a group with neither bracket nor through-barlines is not written); nothing is added but an invisible group around everything when no visible group covers all staves.", "quantifier": "all sets of staff groups, all lists of staves", "why_tests_cant": "Recursive structure with nested brackets, printed and parsed by different code.", "anchors": ["converter21/humdrum/humdrumwriter.py: _getSystemDecoration, _appendRecursiveDecoString", "converter21/humdrum/humdrumfile.py: _processSystemDecoration", "converter21/shared/m21utilities.py: getStaffGroupTrees"]}
{"id": "C69", "title": "Header and closing lines have one token per spine", "statement": "The exported file's first line gives an exclusive interpretation to every spine of the lines that follow, the part line names the part of every spine, and the last line ends every spine, in the same order as the tokens of the music lines.", "quantifier": "all grids: every number of parts, staves and side spines (xml ids, verses, dynamics, figured bass, harmony), every first line of the first measure", "why_tests_cant": "The header lines are computed from one slice, the music lines from others; agreement is needed for every score.", "anchors": ["converter21/humdrum/humgrid.py: insertExclusiveInterpretationLine, insertPartIndications, appendTerminationLine", "converter21/humdrum/gridslice.py: transferTokens"]}
{"id": "C70", "title": "Events of a measure are exported in order of time", "statement": "When a score is exported, the events of a measure (notes, clefs, text, ... of all staves) are handled in increasing order of time; all events of one time, from all staves, are handled together, so that they come to the same line; each event is handled exactly once, in the order of its staff.", "quantifier": "all numbers of staves and all event lists of the staves' measures", "why_tests_cant": "The merge of the staves depends on how their times interleave, and on staves that are empty or shorter.", "anchors": ["converter21/humdrum/humdrumwriter.py: HumdrumWriter._insertMeasure, _convertNowEvents", "converter21/humdrum/measuredata.py: MeasureData._sortEvents"]}
{"id": "C71", "title": "Gaps in a voice become rests", "statement": "When a voice is exported whose notes do not overlap, its events (notes, rests, and rests made up for gaps and for missing time at the start and the end) follow each other without gap or overlap and fill the measure; every element of the voice is one event at its own time.", "quantifier": "all voices: any offsets and durations of elements, any missing time before and after", "why_tests_cant": "Gaps of any length occur; those that need more than one rest are rare in test files.", "anchors": ["converter21/humdrum/measuredata.py: MeasureData._parseEventsIn", "converter21/shared/m21utilities.py: M21Utilities.getPowerOfTwoQuarterLengthsWithDotsAddingTo"]}
{"id": "C72", "title": "Grace notes stand in order before their note", "statement": "When grace notes of several voices come before the same time, each voice's column contains exactly its grace notes in their order, and they end on the last grace note line, directly before the main note.", "quantifier": "all numbers of voices and of grace notes in each", "why_tests_cant": "Voices with different numbers of grace notes are aligned at the end.", "anchors": ["converter21/humdrum/humdrumwriter.py: HumdrumWriter._addGraceLines"]}
{"id": "C73", "title": "Tuplets look the same after export and import", "statement": "If a score with tuplets whose numbers or brackets are hidden or shown is exported to Humdrum and read again, the number of each tuplet is hidden exactly if it was, and so is the bracket of each tuplet with a number.", "quantifier": "all staves: any number of measures, voices and tuplets, with any combination of hidden numbers and brackets", "why_tests_cant": "What is written depends on all tuplets before, and the importer goes through the voices in another order than the exporter.", "anchors": ["converter21/humdrum/humdrumwriter.py: HumdrumWriter._addEvent, tupletsSuppressed, tupletBracketsSuppressed", "converter21/humdrum/humdrumfile.py: HumdrumFileContent._handleStaffStateVariables, _convertMeasureStaff, _startTuplet"]}
{"id": "C74", "title": "Pedal marks are read back", "statement": "If a staff with pedal marks is exported and read again, it has the same pedal marks, each with its start, its bounces (with or without printed pedal up) and its end; and whatever tokens a file contains, the pedal marks read from it do not overlap and their bounces lie between start and end.", "quantifier": "all sequences of pedal marks of a staff, with any number of bounces, and all other tokens between them; all token sequences", "why_tests_cant": "The meaning of a token depends on the tokens around it at the same time.", "anchors": ["converter21/humdrum/m21convert.py: M21Convert.getKernTokenStringsFromM21PedalTransition, getKernTokenStringFromM21OttavaOrPedal", "converter21/humdrum/gridmeasure.py: GridMeasure.addOttavaOrPedalTokensBefore", "converter21/humdrum/humdrumfile.py: HumdrumFileContent._handlePedalMark, _hasBounceAfter, _hasBounceBefore"]}
{"id": "C75", "title": "An object between notes is exported at its own time", "statement": "When a score object such as a dynamic, a text or a pedal mark starts where no note of its staff starts, the export writes it on a line at exactly its time. If no such line exists in the staff, one new voice of invisible rests is added to the staff: the rests start at the start of the measure, follow each other without gaps and fill the measure, one of them starts at the object, no other spine changes, and from the first line of notes on every line of the measure has the new voice.", "quantifier": "all measures with their lines in order, all staves, all measure lengths and object offsets, all numbers of voices, repeated calls included", "why_tests_cant": "the lines, voices, durations and offsets are unbounded, and each added voice changes the lines that the next object sees", "anchors": ["converter21/humdrum/humdrumwriter.py:sliceStartsNote", "converter21/humdrum/humdrumwriter.py:_produceOutputSliceForUnassociatedM21Object", "converter21/humdrum/humdrumwriter.py:_appendInvisibleRestVoice", "converter21/humdrum/humdrumwriter.py:_finishAddingInvisibleRestVoice"]}
{"id": "C76", "title": "MEI element trees are written and searched faithfully", "statement": "Writing an MEI element and everything below it never fails and gives back exactly the same tree (tags, attributes, text, order); searching by name returns exactly the elements below with that tag or local name, in document order, and the first-match searches return the first of them; the search by attribute returns the first element that has that attribute with that value.", "quantifier": "every element tree, every name, every attribute name and value", "why_tests_cant": "Trees have unbounded depth and width; tests look at a few small documents.", "anchors": ["converter21/mei/meielement.py: MeiElement.findAll, findFirst, findFirstWithAttributeValue, makeRootElement, __init__", "converter21/shared/debugutilities.py: DebugTreeBuilder"]}
{"id": "C77", "title": "The text of an MEI element is all of its text, once, in document order", "statement": "The text taken from an MEI element consists of its characters and those of its sub-elements in document order, with a line break for each <lb>, a glyph for each SMuFL <symbol>, each editorial choice replaced by its reading and layout white space left out; nothing is lost and nothing comes twice.", "quantifier": "every MEI element tree", "why_tests_cant": "Editorial mark-up can be nested and mixed with text in unboundedly many ways.", "anchors": ["converter21/mei/meishared.py: MeiShared.textFromElem, chooseSubMeiElement"]}
{"id": "C78", "title": "MEI time stamps: a decimal beat is read as the simple fraction it stands for", "statement": "Reading an MEI time stamp never fails or hangs on a decimal number and gives a nearest fraction with denominator at most 768; a position exported as a time stamp is read back as the same position.", "quantifier": "every rational number as the decimal read; every position in a measure under every meter", "why_tests_cant": "The reader's continued-fraction loop must be right for every number; tests check a handful of thirds.", "anchors": ["converter21/mei/meireader.py: MeiReader._preFracLimitDenominator, tstampStrToOffsetQL, _beatToOffset, _tstampToOffset", "converter21/mei/m21objectconvert.py: M21ObjectConvert.makeTstamp, _offsetToBeat, floatToStringWithDecimalPlacesMinMax"]}
{"id": "C79", "title": "Bar lines and repeats survive MEI export and import", "statement": "Exporting a score to MEI never fails because of a bar line, and every measure's left and right bar lines (regular, dotted, dashed, double, final, invisible, heavy, start and end repeats) are read back from the file.", "quantifier": "every sequence of measures of any length with any left and right bar lines of music21", "why_tests_cant": "Each boundary between two measures is one MEI attribute made from two bar lines and taken apart by the reader with a bar line pending from the measure before: all pairs and all sequences matter, tests show a few files.", "anchors": ["converter21/mei/m21objectconvert.py: M21ObjectConvert.m21BarlineToMeiMeasureBarlineAttr, m21BarlinesToMeiMeasureBarlineAttr, meiMeasureBarlineAttrCombine", "converter21/mei/meimeasure.py: MeiMeasure._fillInMeasureAttributes", "converter21/mei/meireader.py: MeiReader._barlineFromAttr, _makeBarlines, sectionScoreCore"]}
{"id": "C80", "title": "Durations survive MEI export and import", "statement": "A note, rest or chord exported to MEI and read back has the same written type and dots and is performed for the same time, in tuplets and two-note tremolos too, whether or not the performed length is the written one; a grace note keeps its type and dots and stays accented or unaccented.", "quantifier": "every duration: type, any number of dots, any tuplet ratios, any performed length; every default duration", "why_tests_cant": "Four attributes with rules for leaving each of them out must be inverted for all combinations of written and performed durations; tests show a few.", "anchors": ["converter21/mei/m21objectconvert.py: M21ObjectConvert.m21DurationToMeiDurDotsGrace", "converter21/mei/meireader.py: MeiReader.durationFromAttributes, scaleToTuplet, fTremFromElement, noteFromElement", "converter21/shared/m21utilities.py: M21Utilities.makeDuration"]}
{"id": "C81", "title": "Pitches survive MEI export and import, under ottavas too", "statement": "A note exported to MEI and read back has the same step and accidental, displays the accidental when it did, and sounds in the same octave, whether or not an ottava over it is transposing.", "quantifier": "every pitch in any octave with every accidental of music21, displayed or not; every ottava", "why_tests_cant": "The writer and reader use four different tables and the octave is adjusted by the ottava on one side only; all combinations matter.", "anchors": ["converter21/mei/m21objectconvert.py: M21ObjectConvert._noteToMei, _getOttavaShiftAndTransposing, m21AccidToMeiAccid, m21AccidToMeiAccidGes", "converter21/mei/meireader.py: MeiReader.noteFromElement, _accidentalFromAttr, _accidGesFromAttr, _ppOctaves"]}
{"id": "C82", "title": "Tremolos keep their marks through MEI", "statement": "A tremolo on one note or between two notes exported to MEI and read back has the same number of marks.", "quantifier": "every note type with any dots and every number of marks from 1 to 8", "why_tests_cant": "The number of beams in the file is the sum of marks and flags, to be taken apart by the reader for all note types and dots.", "anchors": ["converter21/mei/meilayer.py: MeiLayer.processBTremState, processBeamTupletFTremStart", "converter21/mei/meireader.py: MeiReader.bTremFromElement, fTremFromElement"]}
{"id": "C83", "title": "Key signatures, time signatures and clefs survive MEI export and import", "statement": "Key signatures (sharps, tonic, mode), time signatures (numerator, denominator, symbol) and clefs (sign, line, octave) exported to MEI are read back the same.", "quantifier": "every number of sharps or flats, every tonic and mode, every numerator and denominator, every clef sign, line and octave change", "why_tests_cant": "The values range over all integers; the reader looks at one digit of the signature.", "anchors": ["converter21/mei/m21objectconvert.py: M21ObjectConvert.m21KeySigToMei, m21TimeSigToMei, m21ClefToMei", "converter21/mei/meireader.py: MeiReader._sharpsFromAttr, _keySigFromAttrs, _timeSigFromAttrs, _getOctaveShift, _clefFromElement"]}
{"id": "C84", "title": "Alterations implied by key and earlier notes in the measure", "statement": "While an MEI staff is read, the alteration implied for any note (used for the accidentals of ornaments) is that of the last note on the same line or space in the measure, or of the key signature if there was none, and reading never fails because of a note's octave.", "quantifier": "every sequence of keys, bar lines and notes of any length and in any octave", "why_tests_cant": "It is a history property: an invariant over all sequences of events.", "anchors": ["converter21/mei/meireader.py: MeiReader.updateStaffKeyAndAltersWithNewKey, updateStaffAltersWithPitches, updateStaffAltersForMeasureStart", "converter21/shared/m21utilities.py: M21Utilities.getAltersForKey, pitchToBase7"]}
{"id": "C85", "title": "Beams, tuplets and tremolos become properly nested MEI elements", "statement": "The beams, tuplets and two-note tremolos of a voice are written to MEI as properly nested elements whenever they do not cross; a tuplet that crosses a beam is not written as an element; every two-note tremolo that is written can be read back with its two notes.", "quantifier": "every voice of any length and every set of non-crossing spanners over it", "why_tests_cant": "Start and end tags are written by two separate sorts by length and kind; that they agree must hold for all nestings of all depths.", "anchors": ["converter21/mei/meilayer.py: MeiLayer.makeRootElement, getOrderedBeamTupletFTremStarts, getOrderedBeamTupletFTremEnds, nestsReasonably", "converter21/mei/meireader.py: MeiReader.fTremFromElement, fTremChildrenTagToFunction", "converter21/shared/m21utilities.py: M21Utilities.getSpannerQuarterLength"]}
{"id": "C86", "title": "Notes and signatures keep their times in an exported MEI layer", "statement": "A voice is written to an MEI layer such that whatever is written (notes, rests, clefs, key and time signatures) is read back at its offset in the measure; every note of the voice is written once and in order; every clef or signature of the staff is written in full in one layer, and as a reference to it in the others.", "quantifier": "every voice with any offsets and durations, any gaps, any changes of clef, key or meter, and any number of layers", "why_tests_cant": "Positions in MEI are implied by the durations before; a gap that is filled wrongly, or a change at an unusual moment, moves everything after it.", "anchors": ["converter21/mei/meilayer.py: MeiLayer.makeRootElement", "converter21/mei/meistaff.py: MeiStaff.makeRootElement", "converter21/mei/m21objectconvert.py: M21ObjectConvert.convertM21ObjectToMeiSameAs", "converter21/mei/meireader.py: MeiReader.layerFromElement, MeiReader._clefFromElement"]}
{"id": "C87", "title": "The layers of a staff have distinct numbers", "statement": "The layers of each staff of an exported MEI measure have distinct numbers, and a voice that has a small number as its identifier keeps it.", "quantifier": "every list of voices with any identifiers", "why_tests_cant": "Numbers are partly taken from the voices and partly counted; a clash depends on the combination.", "anchors": ["converter21/mei/meistaff.py: MeiStaff.makeRootElement"]}
{"id": "C88", "title": "Measures, breaks and repeat endings survive MEI", "statement": "Exporting a score to MEI and reading it gives all measures in order, with the system and page breaks before the same measures, and with repeat brackets around the same measures.", "quantifier": "every number of measures, every choice of measures with breaks and every set of repeat brackets that do not overlap", "why_tests_cant": "Breaks and endings interact: a break is written before an ending begins, and the reader attaches it to what follows; only a proof covers all arrangements.", "anchors": ["converter21/mei/meimeasure.py: MeiMeasure.makeRootElement, _checkForEndingStart, _checkForEndingEnd", "converter21/mei/meiscore.py: MeiScore.makeRootElement, _getMeiMeasures", "converter21/mei/meireader.py: MeiReader.sectionScoreCore"]}
{"id": "C89", "title": "The exported MEI scoreDef defines every staff once and in order", "statement": "The scoreDef of an exported MEI file has one staffDef for each staff of the score, in the order of the score, and one staffGrp for each staff group of the score, with its symbol and barlines and around exactly its staves; besides these there is at most one staffGrp around everything.", "quantifier": "every number of staves and every set of nested or disjoint staff groups", "why_tests_cant": "A recursive writer over a tree built from sets of staff numbers; nested groups of any depth, and the order of iteration over sets.", "anchors": ["converter21/mei/meiscore.py: MeiScore.makeScoreDefElement, makeStaffGrpElement, makeStaffGrpOrStaffDefElementStartingAt", "converter21/shared/m21utilities.py: M21Utilities.getStaffGroupTrees"]}
{"id": "C90", "title": "Staff groups read from MEI are around the right staves", "statement": "Reading the scoreDef of an MEI file gives one staff group per staffGrp, with its symbol and barlines, that holds the parts of exactly the staves defined in it; each staff's music is in the part that has the name of its staffDef.", "quantifier": "every scoreDef: every nesting of staffGrp and staffDef elements of any depth with distinct numbers", "why_tests_cant": "Parts are made by a recursion over the groups and matched to staves by position in another list; whether the two orders agree depends on the whole tree.", "anchors": ["converter21/mei/meireader.py: MeiReader.scoreDefFromElement, staffGroupDescriptionTreeFromStaffGrp, processStaffGroupDescriptionTree, allPartsPresent"]}
{"id": "C91", "title": "Ties survive MEI export and import", "statement": "After exporting a score to MEI and importing it again, a note starts, continues or ends a tie exactly when it did before: each tie element of the exported file joins a tied note to the next note of the same pitch in its part.", "quantifier": "every part: any number of measures, voices, notes and chords, any pitches and times", "why_tests_cant": "The other end of a tie is searched for by pitch and time, voice by voice and over two measures, among all ties that are open; the reader merges the ties at a note one after the other.", "anchors": ["converter21/mei/meiscore.py: MeiScore.annotateScore, annotateTies", "converter21/mei/meilayer.py: MeiLayer.makePostStavesElements", "converter21/mei/m21objectconvert.py: M21ObjectConvert.postStavesSpannerToMei", "converter21/mei/meireader.py: MeiReader._ppTies, _tieFromAttr"]}
{"id": "C92", "title": "Beams survive MEI export and import", "statement": "After exporting a score to MEI and importing it again, every group of beamed notes is still one group, and each beam of each note starts, continues, stops or is partial exactly as it did before, including where secondary beams are broken.", "quantifier": "every voice: any number of groups, notes in a group, numbers of beams and secondary breaks", "why_tests_cant": "The type of a beam depends on the neighbours of a note and on breaks; the reader gets it by three passes over the group and corrections at the breaks.", "anchors": ["converter21/mei/meireader.py: MeiReader.beamTogether, applyBreaksecs, beamGroupIsAllGraceNotes, beamFromElement, _ppBeams", "converter21/mei/meiscore.py: MeiScore.annotateBeams"]}
{"id": "C93", "title": "Tuplets survive MEI export and import", "statement": "After exporting a score to MEI and importing it again, every note is in the same tuplets as before, each with its two numbers, its bracket, number and placement, and with its first and last note; durations are as before.", "quantifier": "every part: any number of tuplets with any numbers and looks, notes, grace notes and other things in them, nested to any depth", "why_tests_cant": "Tuplets are kept as a type at each note; the writer finds them with a stack, and the reader adds them to the notes from the inside, with the ends corrected afterwards.", "anchors": ["converter21/mei/meiscore.py: MeiScore.annotateTuplets", "converter21/mei/m21objectconvert.py: M21ObjectConvert.fillInTupletAttributes", "converter21/mei/meireader.py: MeiReader.tupletFromElement, scaleToTuplet, _guessTuplets, noteFromElement"]}
{"id": "C94", "title": "Ends of spanners survive MEI export and import", "statement": "After exporting a score to MEI and importing it again, every hairpin, octave sign or other line that ends at a time (not at a note) ends in the same measure at the same time as before.", "quantifier": "every part: any measures and meters, any beginning and end, any number of such lines at once", "why_tests_cant": "The end is written as a number of measures and a beat; the reader keeps a list of ends that wait over measures; meters may change in between.", "anchors": ["converter21/mei/m21objectconvert.py: M21ObjectConvert.makeTstamp2, makeTstamp2FromScoreOffset", "converter21/mei/meireader.py: MeiReader._tstamp2ToMeasSkipAndOffset, measureFromElement"]}
{"id": "C95", "title": "Beams survive Humdrum export and import", "statement": "After exporting a measure of a voice to Humdrum and importing it again, every note and chord has the same beams (start, continue, stop, hooks, secondary breaks) as before.", "quantifier": "every layer of a measure: any number of groups, of notes in them, of beams of each note, any rests, grace notes and non-data tokens between them", "why_tests_cant": "Humdrum only has counts of opened and closed beams per token; the groups, the types of all inner beams and secondary breaks are found again from running sums.", "anchors": ["converter21/humdrum/m21convert.py: M21Convert._getHumdrumBeamStringFromM21Beams, kernPrefixesPostfixesAndLayoutsFromM21Chord", "converter21/humdrum/humdrumfile.py: HumdrumFile._groupBeams, _analyzeLayerBeams, _prepareBeamAndTupletGroups, _handleGroupState, _startBeam, _continueBeam, _endBeam"]}
{"id": "C96", "title": "Tuplets are found on Humdrum import", "statement": "When a Humdrum file is imported, the notes of a tuplet (whose durations are not plain note values) get a tuplet that starts at the first and stops at the last of them, with numbers that make each written value a plain note value; notes outside of tuplets get none, and only tuplets with the same ratio that a beam connects become one.", "quantifier": "every layer of a measure: any number of tuplets of any ratio, of notes in them, of beams, and any plain notes between them", "why_tests_cant": "Humdrum has no tuplet signs: extent and ratio are guessed from durations and beams by several passes (grouping, splitting, renumbering, merging, scaling) that rewrite each other's results.", "anchors": ["converter21/humdrum/humdrumfile.py: HumdrumFile._prepareBeamAndTupletGroups, _findTupletEndByBeamWithDottedPow2Duration, _mergeTupletsCuttingBeam, _assignTupletScalings, _assignScalingToTupletGroup, _handleGroupState, _makeTuplet"]}
{"id": "C97", "title": "Articulations and fermatas survive a Humdrum round trip", "statement": "The articulations written into the **kern token of a note on export, each with its placement, and its fermata are the ones found when the token is read back, whatever else is written in the token and whether the note is hidden or not.", "quantifier": "every list of articulations (any classes, any placements, any order), every fermata type, and every text of the other parts of the token", "why_tests_cant": "Signs are single characters in one string shared with slurs, ties, durations, pitches, beams and user-defined signifiers; some signs are prefixes of others, and placements and hiding marks apply to whatever precedes them.", "anchors": ["converter21/humdrum/m21convert.py: M21Convert.m21Articulations, _getHumdrumStringFromM21Articulations, _getHumdrumStringAndLayoutsFromM21Expressions, kernTokenStringAndLayoutsFromM21Note, kernPrefixPostfixAndLayoutsFromM21GeneralNote", "converter21/humdrum/humdrumfile.py: HumdrumFile._addFermata, _getDirection"]}
{"id": "C98", "title": "Key and time signature changes reach their staves", "statement": "When a Humdrum file is imported, each key and time signature change in a measure is put into the measure of its own staff at its own time with its mensuration symbol or key name, nothing is put into other staves, and every staff's later ornaments are resolved with the key then in force on that staff.", "quantifier": "every measure: any number of staves and other spines, any interpretation lines with any tokens in any order", "why_tests_cant": "The changes are collected in per-staff lists over all lines of the measure, then applied staff by staff with a variable left over from the collecting loop; only more than one staff, or spines in a certain order, show the difference.", "anchors": ["converter21/humdrum/humdrumfile.py: HumdrumFile._addKeyTimeChangesToSystemMeasures"]}
{"id": "C99", "title": "Pitches survive in kern tokens", "statement": "The pitch written into a note's **kern token on export, with step, alteration and octave, is the pitch read from the token on import, whatever accidental display marks, slurs, ties, durations, articulations and beams are in the token; so is the staff position of an unpitched note.", "quantifier": "every step, every octave, every alteration, every accidental display and every surrounding text without note letters and accidentals", "why_tests_cant": "Octaves are coded by repeating letters without bound, accidentals are counted over the whole token, and other parts of the token share the string.", "anchors": ["converter21/humdrum/m21convert.py: M21Convert.kernPitchFromM21Pitch, kernPitchFromM21OctaveAndStep, kernPitchFromM21Unpitched, accidentalInfo, m21PitchName, m21StepName", "converter21/humdrum/convert.py: Convert.kernToOctaveNumber, kernToDiatonicPC", "converter21/humdrum/humdrumfile.py: HumdrumFile._convertNote"]}
{"id": "C100", "title": "Clefs and meters survive in their tokens", "statement": "The clef tokens, time signature tokens and mensuration tokens written on export are read back on import as the same clef (sign, line, octave change), the same meter and the same symbol.", "quantifier": "every clef sign, line and octave change; every time signature of one or more fractions; every symbol", "why_tests_cant": "Octave changes are coded by repeated characters, the reader strips characters from any position, and numbers have any number of digits.", "anchors": ["converter21/humdrum/m21convert.py: M21Convert.clefTokenFromM21Clef, m21Clef, timeSigTokenFromM21TimeSignature, meterSigTokenFromM21TimeSignature, m21TimeSignature", "converter21/humdrum/humdrumtoken.py: HumdrumToken.isTimeSignature, timeSignature, mensurationSymbol, clef"]}
{"id": "C101", "title": "Ornaments survive in kern tokens", "statement": "The trills, mordents and turns of an exported note are read back as ornaments of the same kind, inverted or not, delayed or not, with the same neighbouring notes and the same displayed accidentals, and a trill line comes back as a trill line.", "quantifier": "every note with any set of ornaments in any order, every pitch, every minor or major second, every state of the accidentals of the measure, every other text in the token", "why_tests_cant": "Ornament letters are found by searching the whole token, the neighbouring notes come from an analysis over all earlier notes of the measure, and the order of the two letters of a turn only matters when the two intervals differ.", "anchors": ["converter21/humdrum/m21convert.py: M21Convert._getHumdrumStringAndLayoutsFromM21Expressions, _getHumdrumStringAndLayoutsFromM21TrillMordentTurn", "converter21/humdrum/humdrumfile.py: HumdrumFile._addOrnaments, _addTrill, _addMordent, _addTurn, _computeM21Accidental", "converter21/humdrum/humdrumfilecontent.py: HumdrumFileContent._analyzeKernAccidentals"]}
{"id": "C102", "title": "Dynamics survive in **dynam spines", "statement": "The value of an exported dynamic is read back unchanged: a plain mark, a mark in any of the four kinds of brackets, a mark with words before or after it, and each of several dynamics at one time.", "quantifier": "every dynamic mark (mf, mp, any number of p or f, with s, r, z), every kind of bracket, every text before or after", "why_tests_cant": "The mark is searched in the text by sixteen regular expressions in a fixed order and replaced in it by another search; which occurrence is hit depends on all words of the text.", "anchors": ["converter21/humdrum/m21convert.py: M21Convert.getDynamicString, getDynamicParameters, dynamicPatterns, dynamicBrackets", "converter21/humdrum/humdrumfile.py: HumdrumFile._processDynamics, _getLayoutParameterWithDefaults", "converter21/humdrum/humdrumwriter.py: HumdrumWriter._addUnassociatedDynamics"]}
{"id": "C103", "title": "Hairpins survive in **dynam spines", "statement": "Every exported crescendo and diminuendo comes back as a hairpin of the same kind with the same start and end, whatever dynamics and other hairpins the part has.", "quantifier": "every list of hairpins of a part, every set of dynamics, every number of rows", "why_tests_cant": "The end of a hairpin is searched over all later tokens and the search gives up at other signs, so it depends on everything written between start and end.", "anchors": ["converter21/humdrum/m21convert.py: M21Convert.getDynamicWedgeString", "converter21/humdrum/humdrumwriter.py: HumdrumWriter._addEventDynamics", "converter21/humdrum/humdrumfile.py: HumdrumFile._processHairpin, _getHairpinEnd"]}
{"id": "C104", "title": "Tempo marks survive in Humdrum", "statement": "An exported tempo mark comes back with the same number, words and beat note: the number from the *MM token, the words from the OMD record or text layout, and the beat note and number written in the words as '[note] = number'.", "quantifier": "every number, every words, every note name and dots, every set of tempos at one time", "why_tests_cant": "Numbers and texts are unbounded, the beat note is found by regular expressions over any text, and the record that is read depends on all the records and bar lines around it.", "anchors": ["converter21/humdrum/m21convert.py: M21Convert.getMMTokenAndTempoTextFromM21TempoIndication, durationFromHumdrumTempoNoteName", "converter21/humdrum/convert.py: Convert.getTempoText, humdrumTempoNoteNameToSmuflText, getMetronomeMarkInfo", "converter21/humdrum/humdrumtoken.py: HumdrumToken.tempoBPM, tempoName", "converter21/humdrum/humdrumwriter.py: HumdrumWriter._addTempo", "converter21/humdrum/gridmeasure.py: GridMeasure.addGlobalReference", "converter21/humdrum/humdrumfile.py: HumdrumFile._handleTempoChange, _createMetronomeMark, _checkForOmd"]}
{"id": "C105", "title": "Lyrics survive in Humdrum", "statement": "The lyrics of a note, exported to text spines and read back, have the same verse numbers, syllables (elided or not), places of the syllables in their words, and labels, and stay at the note of the same voice.", "quantifier": "every list of lyrics of a note with any verse numbers and syllables, every voices of a staff, every label", "why_tests_cant": "Verse numbers, syllables and voices are unbounded, and what one note writes can overwrite what another wrote.", "anchors": ["converter21/humdrum/humdrumwriter.py: HumdrumWriter._addLyrics, _cleanSpaces", "converter21/humdrum/gridside.py: GridSide.setVerse", "converter21/humdrum/gridslice.py: GridSlice.transferSidesFromStaff", "converter21/humdrum/humdrumfile.py: HumdrumFile._convertVerses, _getVerseLabelText", "converter21/humdrum/humdrumtoken.py: HumdrumToken.noteInLowerSubtrack"]}
{"id": "C106", "title": "Octave lines survive in Humdrum", "statement": "Octave lines over the notes of a staff, exported to Humdrum and read back, start and end at the same times and are of the same kind, in every voice and across barlines.", "quantifier": "every staff of any number of voices, measures and lines, every list of octave lines in it", "why_tests_cant": "The marks of all voices stand in one column, stops wait for a line at the right time, and the reader goes through the voices one after the other; the lines in between are unbounded.", "anchors": ["converter21/humdrum/humdrumwriter.py: HumdrumWriter._addEvent, popPendingOttavaOrPedalStopsAtTime, _finishLastPendingOttavaOrPedalStops", "converter21/humdrum/gridmeasure.py: GridMeasure.addOttavaOrPedalTokensBefore", "converter21/humdrum/m21convert.py: M21Convert.getKernTokenStringFromM21OttavaOrPedal", "converter21/humdrum/humdrumfile.py: HumdrumFile._handleOttavaMark, getStartNoteTokenForOttava, getEndNoteTokenForOttava, _addToOttava", "converter21/shared/m21utilities.py: M21Utilities.adjustSpannerOrder"]}
{"id": "C107", "title": "Measures and their numbers survive in Humdrum", "statement": "The measures of a score, exported to Humdrum and read back, are the same in number, each with its number and suffix, its start and its contents.", "quantifier": "every list of measures with any numbers, suffixes, barline styles, lengths and lines", "why_tests_cant": "Measures are found in the lines by their barlines, and numbers within texts that also hold the style; both are unbounded.", "anchors": ["converter21/humdrum/humgrid.py: HumGrid.addMeasureLines, createBarToken", "converter21/humdrum/measuredata.py: MeasureData._parseMeasure", "converter21/humdrum/humdrumtoken.py: HumdrumToken.barlineNumber, barlineName", "converter21/humdrum/humdrumfile.py: HumdrumFile._prepareSystemMeasures, _measureKey, _measureEndLineIndex, _repositionStartIndex, _getMeasureNumber"]}
{"id": "C108", "title": "Arpeggios keep their notes in Humdrum", "statement": "Simultaneous notes with arpeggios, each a mark on a chord or a spanner over voices or staves, exported to Humdrum and read back, have the same arpeggios over the same notes.", "quantifier": "every line of simultaneous notes, rests and other cells in any number of staves and voices, with any arpeggios", "why_tests_cant": "Which notes belong to an arpeggio is found by walking left and right from each mark, over any number of spines.", "anchors": ["converter21/humdrum/m21convert.py: M21Convert._getHumdrumStringAndLayoutsFromM21Expressions, _allSpannedGeneralNotesInSameMeasure", "converter21/humdrum/humdrumfile.py: HumdrumFile._addArpeggio, _isLeftmostSystemArpeggioToken, _getSystemArpeggioTokens, _isLeftmostStaffArpeggioToken, _getStaffArpeggioTokens"]}
{"id": "C109", "title": "Chord symbols survive as Harte texts", "statement": "A chord symbol exported to Humdrum as a Harte text and read back has the same root, the same bass and the same notes; a symbol without chord stays one.", "quantifier": "every chord symbol of a known kind: every root, bass, kind and list of added, omitted and altered degrees", "why_tests_cant": "Kinds, basses and lists of modifications combine without bound, and what is read is the best match among all kinds.", "anchors": ["converter21/shared/m21utilities.py: M21Utilities.makeHarteFromChordSymbol, makeChordSymbolFromHarte, simplifyChordSymbol, _degreeInt", "converter21/humdrum/m21convert.py: M21Convert.m21ChordSymToHarmonyText, getM21ChordSymFromHarmonyText"]}
{"id": "C110", "title": "Ties survive a trip through Humdrum", "statement": "After export to Humdrum and import each note of a staff has the same tie (start, stop, continue or none) with the same style and placement.", "quantifier": "every list of notes of a staff: layers, times, durations, pitches, ties of every type, style and placement, matched or hanging", "why_tests_cant": "The reader searches a growing list of open ties by layer, pitch and time; tests try a few pairs of notes.", "anchors": ["converter21/humdrum/m21convert.py: M21Convert._getTieStartStopAndLayoutsFromM21GeneralNote", "converter21/humdrum/humdrumfile.py: HumdrumFile._processTieStart, _processTieEnd, _addTieStyle, _processHangingTieStarts, _processHangingTieEnd, HumdrumTie"]}
{"id": "C111", "title": "Slurs survive a trip through Humdrum", "statement": "After export to Humdrum and import a voice has the same slurs as before: each one joins the same first and last note and has the same placement.", "quantifier": "every list of notes of a voice and every set of slurs between them: any number at a note, nested or crossing, with or without placement", "why_tests_cant": "Slurs are told apart only by the order of parentheses; whether every arrangement is paired again as it was cannot be settled by trying some.", "anchors": ["converter21/humdrum/m21convert.py: M21Convert._getKernSlurStartsAndStopsFromGeneralNote", "converter21/humdrum/humdrumfilecontent.py: HumdrumFileContent.analyzeSlurs", "converter21/humdrum/humdrumfile.py: HumdrumFile._processSlurs"]}
{"id": "C112", "title": "How notes look survives a trip through Humdrum", "statement": "After export to Humdrum and import every note looks as before: it is the same kind of grace note or none, its stem has the same direction, it has the same notehead, size and color, and it is hidden or not as before.", "quantifier": "every list of notes, with any mix of grace notes, stems, noteheads, sizes and colors, whatever else is written in their tokens", "why_tests_cant": "Characters for sizes and colors are chosen per file among those that are free, and all other features share the same token; whether some mix of them is misread cannot be settled by trying some.", "anchors": ["converter21/humdrum/m21convert.py: M21Convert.kernPostfixFromM21GeneralNote", "converter21/humdrum/m21convert.py: M21Convert.kernGraceTypeFromM21Duration", "converter21/humdrum/m21convert.py: M21Convert._getNoteHeadLayoutsFromM21GeneralNote", "converter21/humdrum/humdrumfile.py: HumdrumFile._convertNote", "converter21/humdrum/humdrumfile.py: HumdrumFile._setNoteHead", "converter21/humdrum/humdrumfile.py: HumdrumFile._setStemDirection"]}
{"id": "C113", "title": "Instruments survive a trip through Humdrum", "statement": "After export to Humdrum and import every part has the same instrument name, abbreviation and transposition as before, and its first clef, key and time signature are the ones written at its start, whatever the order of the tokens there.", "quantifier": "every name, abbreviation and transposition, every number of staves of the part and in the score, every list of tokens at the start of a spine", "why_tests_cant": "Names are free text and are found among other tokens by their first characters; that no text and no order of tokens is misread cannot be settled by trying some.", "anchors": ["converter21/humdrum/humdrumfile.py: HumdrumFile._createPart", "converter21/humdrum/humdrumfile.py: HumdrumFile.getInstrumentNameFromCode", "converter21/humdrum/humdrumwriter.py: HumdrumWriter._insertPartNames", "converter21/humdrum/humdrumwriter.py: HumdrumWriter._insertPartTranspositions", "converter21/humdrum/partdata.py: PartData._findPartName", "converter21/humdrum/m21convert.py: M21Convert.instrumentTransposeTokenFromM21Instrument", "converter21/humdrum/m21convert.py: M21Convert.m21IntervalFromTranspose"]}
{"id": "C114", "title": "Rehearsal marks survive a trip through Humdrum", "statement": "After export to Humdrum and import every rehearsal mark is in the same measure, on the same staff, at the same offset, with the same text, placement, font, size, justification, color and enclosure; default styles given in the file apply only to what a mark does not say itself.", "quantifier": "every list of rehearsal marks of a measure, every text, style, staff and offset, every list of slices of the measure, every list of default style lines", "why_tests_cant": "The text is free and shares one line with the other parameters; a sample of texts, styles and measures says nothing of the others.", "anchors": ["converter21/humdrum/m21convert.py: M21Convert.rehearsalMarkLayoutParameterFromM21Pieces", "converter21/humdrum/humdrumwriter.py: HumdrumWriter._addUnassociatedRehearsalMarks", "converter21/humdrum/gridmeasure.py: GridMeasure.addGlobalLayoutAtMeasureStart", "converter21/humdrum/gridmeasure.py: GridMeasure.transferTokens", "converter21/humdrum/humgrid.py: HumGrid.addMeasureLines", "converter21/humdrum/humdrumfile.py: HumdrumFile._checkForGlobalRehearsal", "converter21/humdrum/humdrumfile.py: HumdrumFile._getNextBarlineIndex", "converter21/humdrum/humdrumfile.py: HumdrumFile.analyzeDefaultLayoutStyles"]}
{"id": "C115", "title": "Chord symbols survive a trip through Humdrum", "statement": "After export to Humdrum and import every chord symbol of a measure is in the same part at the same offset, symbols at one place keep their order, and each keeps its own chord and its own printed texts. On import a symbol goes to the staff of the nearest kern spine on its left. The older mxhm texts keep root, kind and bass.", "quantifier": "every list of chord symbols of a measure with any parts, offsets and texts, every line of tokens, every table of chord kinds and aliases, every root, kind and bass", "why_tests_cant": "Any number of symbols shares one token and is told apart by numbers in separate comment lines; a sample of measures says nothing of the other numbers and orders.", "anchors": ["converter21/humdrum/humdrumwriter.py: HumdrumWriter._addUnassociatedHarmonies", "converter21/humdrum/m21convert.py: M21Convert.getHarmonyParameters", "converter21/humdrum/m21convert.py: M21Convert.m21ChordSymToHarmonyText", "converter21/humdrum/m21convert.py: M21Convert.getM21ChordSymFromHarmonyText", "converter21/humdrum/humdrumfile.py: HumdrumFile._addHarmFloatsForMeasure", "converter21/humdrum/humdrumfile.py: HumdrumFile._getLayoutParameterWithDefaults"]}
{"id": "C116", "title": "Chords survive a trip through Humdrum", "statement": "A chord written as Humdrum and read back has the same notes in the same order, each with its step, alteration and octave; its slurs and beams are written once for the whole chord, its stem direction and hidden state come back, and a layout parameter of one note reaches that note and no other.", "quantifier": "every chord of any number of notes, every text of the signs around pitches, every list of layout comments and parameters", "why_tests_cant": "The texts of notes and chord are interleaved in one token and the parameters of single notes are found by numbers in shared comments; examples do not cover other numbers of notes and other mixtures of comments.", "anchors": ["converter21/humdrum/m21convert.py: M21Convert.kernTokenStringAndLayoutsFromM21Chord", "converter21/humdrum/m21convert.py: M21Convert._addNoteNumberToLayout", "converter21/humdrum/humdrumfile.py: HumdrumFile._convertChord", "converter21/humdrum/humdrumtoken.py: HumdrumToken.layoutParameter"]}
{"id": "C117", "title": "Clefs, key signatures and time signatures of every staff are written and read back", "statement": "At one moment of a measure every staff may have a clef, a key signature and a time signature of its own. Each of them is written for its staff, with the name of a key and the symbol of a time signature, and importing the lines gives the staff exactly its own signatures again; a staff without one gets none; and grace notes at that moment are neither lost nor moved across the signatures.", "quantifier": "every score with any number of parts and staves, every list of events at a moment, every staff", "why_tests_cant": "Which lines are written depends on all staves together, while the tokens in them belong to one staff each; tests with one part, or with equal signatures on all staves, never see one staff changing what another gets.", "anchors": ["converter21/humdrum/humdrumwriter.py: HumdrumWriter._appendZeroDurationEvents", "converter21/humdrum/humdrumwriter.py: HumdrumWriter._addClefLine", "converter21/humdrum/humdrumwriter.py: HumdrumWriter._addKeySigLine", "converter21/humdrum/humdrumwriter.py: HumdrumWriter._addTimeSigLine", "converter21/humdrum/humdrumwriter.py: HumdrumWriter._fillEmpties", "converter21/humdrum/humdrumfile.py: HumdrumFile._addKeyTimeChangesToSystemMeasures"]}
{"id": "C118", "title": "Dynamics and hairpins keep their staff and place", "statement": "A dynamic or hairpin above, below or in the middle under a staff of its part comes back, after export to Humdrum and import, on the same staff, in the same place and with the same justification, and only once; a note sees only the dynamics of its own staff; and what says nothing about its place gets the place set by the last interpretation for its spine.", "quantifier": "every text, place, justification, staff of a part of any size, every line around the token, every sequence of interpretations", "why_tests_cant": "Staff and place are merged from a numbered layout parameter, the state of the spine and lyrics, with three orders of priority; tests have one or two staves and one way of saying it.", "anchors": ["converter21/humdrum/m21convert.py: M21Convert.getDynamicParameters", "converter21/humdrum/m21convert.py: M21Convert.getDynamicWedgeStartParameters", "converter21/humdrum/humdrumfile.py: HumdrumFile._processDynamics", "converter21/humdrum/humdrumfile.py: HumdrumFile._processHairpin", "converter21/humdrum/humdrumfile.py: HumdrumFile._handleStaffDynamicsStateVariables", "converter21/humdrum/humdrumfile.py: HumdrumFile._hasAboveParameterStaffAdj"]}
{"id": "C119", "title": "Every token is in exactly one strand, and a null token stands for the token before it", "statement": "In a file with correct spine manipulators every token belongs to exactly one strand, whatever the splits and merges; a null token stands for the last token before it in its strand that is not null, and a token that is not null for itself. So the color of a note is the last one given in the color spine.", "quantifier": "every file with correct spine manipulators, of any number of lines, spines, splits and merges, every token", "why_tests_cant": "Strands are found by following links through arbitrarily nested splits and merges; what is wrong in a file only shows when a voice or spine begins with a null token.", "anchors": ["converter21/humdrum/humdrumfilestructure.py: HumdrumFileStructure.analyzeStrands", "converter21/humdrum/humdrumfilestructure.py: HumdrumFileStructure.analyzeSpineStrands", "converter21/humdrum/humdrumfilestructure.py: HumdrumFileStructure.resolveNullTokens", "converter21/humdrum/humdrumtoken.py: HumdrumToken.nullResolution", "converter21/humdrum/humdrumfile.py: HumdrumFile._getSpineColor"]}
{"id": "C120", "title": "Text directions survive a trip through Humdrum", "statement": "A text direction exported to Humdrum and read again has the same text, place, font style, justification and color; the texts of one note come back in order; a text for the whole system is shown once; a text is not taken for a tempo; comments about something else give no text.", "quantifier": "every text of any length, every placement and style, any number of texts on a note, any number of staves", "why_tests_cant": "Texts may hold any characters, the separators of the comment syntax and the words of a metronome mark among them; a test takes a few.", "anchors": ["converter21/humdrum/m21convert.py: M21Convert.textLayoutParameterFromM21Pieces", "converter21/humdrum/humdrumfile.py: HumdrumFile._processLinkedDirection", "converter21/humdrum/humdrumfile.py: HumdrumFile._isFirstTokenOnStaff", "converter21/humdrum/humdrumfile.py: HumdrumFile._processDirections"]}
{"id": "C121", "title": "Metadata survives a trip through Humdrum", "statement": "Metadata exported to Humdrum and read again has, under every name, the same values in the same order: texts with their language and whether they are translations, contributors with their role, dates, custom keys. The export of metadata does not fail. Reference records elsewhere do not disturb this.", "quantifier": "every metadata of any size, every text, language, date, contributor and custom key, every file around the records", "why_tests_cant": "The keys carry a counter and a language, and records are numbered, sorted and compared in ways that depend on all the others; a test takes a few works.", "anchors": ["converter21/humdrum/humdrumwriter.py: HumdrumWriter._addHeaderRecords", "converter21/humdrum/m21convert.py: M21Convert.m21MetadataItemToHumdrumReferenceLineStr", "converter21/humdrum/m21convert.py: M21Convert.m21MetadataItemToHumdrumKeyWithoutIndex", "converter21/humdrum/humdrumfile.py: HumdrumFile._parseReferenceItem", "converter21/humdrum/humdrumfile.py: HumdrumFile._createScoreMetadata", "converter21/shared/m21utilities.py: M21Utilities.m21MetadataValueToString"]}
{"id": "C122", "title": "Exporting a score repairs its durations without losing or reordering notes", "statement": "Before a Humdrum export durations are repaired. Every score can be repaired: parts with too few measures get empty ones. Every voice keeps its notes and visible rests in order and with their durations; notes are only moved later, and only when they overlap; a whole rest alone in a shorter measure is shortened to it. Afterwards no notes of a voice overlap, measures at one place are equally long in all parts and start together, measures are filled, and every measure starts where the one before ends. A score in which nothing is wrong is not changed.", "quantifier": "every score: any number of parts, measures, voices and notes, all offsets and durations, every way of splitting rests", "why_tests_cant": "Each step changes what the next one sees, over all parts and measures; a test has a few measures.", "anchors": ["converter21/shared/m21utilities.py: M21Utilities.fixupBadDurations", "converter21/shared/m21utilities.py: M21Utilities.splitComplexRestDurations", "converter21/shared/m21utilities.py: M21Utilities.fixupComplexHiddenRests", "converter21/humdrum/humdrumwriter.py: HumdrumWriter.write"]}
{"id": "C123", "title": "Every line of an exported score fits the spines there are", "statement": "When a score is exported to Humdrum, spine manipulators are put between lines wherever the number of voices of a staff changes. The file can be read: every line has one token for each spine there is at that point, starting and ending with one spine per staff. No line of music, interpretation, layout or rehearsal mark is lost or moved past another one; every measure starts with its bar line, the first one before the music and after the clefs, and the score ends with one; a global line has one token.", "quantifier": "every score: any number of staves, measures, lines and voices per staff and line", "why_tests_cant": "Each line depends on the one before, over bar lines and measures; a test has a few measures of two voices.", "anchors": ["converter21/humdrum/humgrid.py: HumGrid.transferTokens", "converter21/humdrum/humgrid.py: HumGrid.addMeasureLines", "converter21/humdrum/humgrid.py: HumGrid.addLastBarline", "converter21/humdrum/humgrid.py: HumGrid.manipulatorCheck", "converter21/humdrum/humgrid.py: HumGrid.cleanupManipulators", "converter21/humdrum/humgrid.py: HumGrid.matchVoices", "converter21/humdrum/gridmeasure.py: GridMeasure.transferTokens"]}
{"id": "C124", "title": "Repairing beams leaves no beam that goes on into nothing", "statement": "M21Utilities.fixupBadBeams changes beams so that every beam that continues in a note goes on in the next note of the voice, over bar lines too, and none continues in the last note. In a score of one part no beam stops twice in a row. Parts, measures, voices, notes and their numbers of beams stay as they are, and so do grace notes and chord symbols; of a beam only the difference between going on and stopping changes, and with several parts a stop stays a stop. A score with sound beams is not changed.", "quantifier": "every score: any number of parts, measures, voices and notes, all beams", "why_tests_cant": "Every change depends on the neighbouring note, possibly several measures away; a test has a few notes.", "anchors": ["converter21/shared/m21utilities.py: M21Utilities.fixupBadBeams"]}
{"id": "C125", "title": "Every exported note is followed by null tokens as long as it sounds", "statement": "When a score is written as Humdrum, each voice has a null token in every line of notes in which one of its earlier notes still sounds, and a null token is added only in lines in which one sounds, never in lines of grace notes or lines without spines. Tokens that are already there are never overwritten: if a note starts while an earlier note of the voice still sounds, an exception is raised, and otherwise none is. A voice without gaps has a token in every line of notes.", "quantifier": "every sequence of lines of a grid: any number of lines of notes, grace notes, interpretations, bar lines and comments, with all times and durations", "why_tests_cant": "How far a note reaches depends on the times of all lines after it, also those without notes; a test has a few lines.", "anchors": ["converter21/humdrum/humgrid.py: HumGrid.addNullTokensForNoteDurations, extendDurationToken", "converter21/humdrum/gridstaff.py: GridStaff.setNullTokenLayer"]}
{"id": "C126", "title": "Slurs of an MEI file join the notes the file says", "statement": "When an MEI file is read, every slur element that says where it starts or ends becomes one slur with its placement, and it joins exactly the notes and chords with the two ids, however many slurs start or end there and whatever else has ids. Every start of a slur in a slur attribute becomes one slur; the k-th slur started with a number ends at the k-th end with that number. There are no other slurs. A slur goes from its start to its end.", "quantifier": "every file: any number of slur elements, notes and chords, with all ids, placements and attributes", "why_tests_cant": "Slurs that share a note are joined into one text and taken apart again, and numbers are used again and again; a test has two or three slurs.", "anchors": ["converter21/mei/meireader.py: MeiReader._ppSlurs, _ppConclude, addSlurs, safeAddToSpannerByIdLocal"]}
{"id": "C127", "title": "Tokens of spines without a rhythm last until the next one", "statement": "When a Humdrum file is read, each data token of a spine without a rhythm of its own, such as dynamics or text, gets a duration: until the next data token that follows it in its spine, across the merge of spines, or else until the end of the spine. Durations are not negative, the tokens of a spine cover its time from the first one without gaps or overlaps, and nothing but the durations of data tokens changes.", "quantifier": "every such track: any number of tokens, splits and merges, and all times", "why_tests_cant": "What follows a token depends on all later merges of its spine; a test has a few lines, mostly without merges.", "anchors": ["converter21/humdrum/humdrumfilestructure.py: HumdrumFileStructure.analyzeDurationsOfNonRhythmicSpines, assignDurationsToNonRhythmicTrack"]}
{"id": "C128", "title": "Pedal elements of an MEI file become the pedal marks the file says", "statement": "When an MEI file is read, the pedal elements of a staff from one down to its up, with the bounces between, become one pedal mark, whatever pedal elements of other staves stand between them, and also if the up stands before its down. A mark has elements of one staff only. Every element with a known direction is in one mark. A note with pedals is put into exactly the marks of the pedals attached to it.", "quantifier": "every file: any number of pedal elements, staves, notes and directions in any order", "why_tests_cant": "The mark of an element depends on all earlier elements of its staff; a test has one or two marks.", "anchors": ["converter21/mei/meireader.py: MeiReader._ppPedals, addPedals"]}
{"id": "C129", "title": "The text of a chord symbol can be read again", "statement": "The text that is written to an MEI file for a chord symbol has the characters of its figure, with all flats and sharps as signs, and when it is read again the same figure comes back. The label of the kind of chord is what stands between the root and the bass. Reading ends for every text.", "quantifier": "every figure and every text, of any length", "why_tests_cant": "Reading replaces words and signs anywhere in a text; tests use a few usual chords.", "anchors": ["converter21/shared/m21utilities.py: M21Utilities.convertChordSymbolFigureToPrintableText, convertPrintableTextToChordSymbolFigure"]}
{"id": "C130", "title": "Places without a token are filled with invisible rests", "statement": "When a score is written to Humdrum, every place of a note line that has no token gets an invisible rest, which lasts until the next note line that has the voice again. Tokens that are there stay the same, and no line or place is added or lost.", "quantifier": "every grid: any number of lines, parts, staves and voices, with any places empty", "why_tests_cant": "How long a voice is missing depends on all later lines; a test has hardly any empty place.", "anchors": ["converter21/humdrum/humgrid.py: HumGrid.checkForNullDataHoles"]}
{"id": "C131", "title": "Directions, dynamics and tempos attached to a note are found at the note", "statement": "When an MEI file is read, every direction, dynamic and tempo that is attached to a note by its id is found at this note as a direction, a dynamic or a tempo, with its text, its brackets, its placement and its font. Nothing else is found there.", "quantifier": "every file: any number of elements and notes, in any order", "why_tests_cant": "Elements that share a note write to the same attributes; tests attach one text to a note.", "anchors": ["converter21/mei/meireader.py: MeiReader._ppDirsDynamsTempos, addDirsDynamsTempos"]}
{"id": "C132", "title": "Arpeggios of an MEI file join the notes the file names", "statement": "When an MEI file is read, an arpeggio element that names several notes, by its list, its start or its end, gives one arpeggio that joins exactly these notes; one that names a single note gives a mark on this note. The type of the arpeggio is the one its order and arrow say.", "quantifier": "every file: any number of arpeggio elements, lists of any length, every arrow and order", "why_tests_cant": "Elements that share a note write to the same attribute, and the three ways of naming notes overlap; tests have one arpeggio named in one way.", "anchors": ["converter21/mei/meireader.py: MeiReader._ppArpeggios, addArpeggio"]}
{"id": "C133", "title": "Hairpins and octave lines of an MEI file go from their start note to their end note", "statement": "When an MEI file is read, every hairpin of a known form and every octave line of a known distance and side, with a start note and an end note, gives one spanner of its kind, from its start note to its end note. Elements of other forms give none.", "quantifier": "every file: any number of elements, notes in any number and order", "why_tests_cant": "Elements that share a note write to the same attribute; tests have hairpins one after the other.", "anchors": ["converter21/mei/meireader.py: MeiReader._ppHairpins, _ppOctaves, addHairpins, addOttavas"]}
{"id": "C134", "title": "Trills, mordents and turns attached to a note in an MEI file are found at the note", "statement": "When an MEI file is read, a trill, mordent or turn attached to a note by id gives this note an ornament of its kind, upper or lower as its form, type or accidentals say, with its accidentals, its placement and its delay. Notes without such an element get no ornament.", "quantifier": "every file: any number of elements, in any order, with any attributes of the standard", "why_tests_cant": "Attributes that are not given leave what another element wrote; defaults depend on other attributes; tests have single ornaments.", "anchors": ["converter21/mei/meireader.py: MeiReader._ppTrills, _ppMordents, _ppTurns, addTrill, addMordent, addTurn"]}
{"id": "C135", "title": "The file the command line program writes has an extension of its format", "statement": "For every output path and format, the program writes to the path as given if its extension is registered for the format, with this extension replaced by a registered one if it is not, and with a registered one added if there is none. The file written always has an extension of the format, and asking for this file gives the same file.", "quantifier": "every path, every format, every list of registered subconverters", "why_tests_cant": "Dots in folders, in names and at the beginning of names are treated differently; tests use plain names.", "anchors": ["converter21/__main__.py: getValidOutputExtensionForFormat, getOutputExtensionsListForFormat, main program"]}
{"id": "C136", "title": "Fermatas attached to a note in an MEI file are found at the note", "statement": "When an MEI file is read, a note gets a fermata exactly if a fermata element is attached to it by id. It is above or below, upright or inverted, and of the shape the element says.", "quantifier": "every file: any number of fermata elements, in any order, with any values of the standard", "why_tests_cant": "Placement, form and shape have defaults that depend on each other and are left from other elements; tests have single fermatas.", "anchors": ["converter21/mei/meireader.py: MeiReader._ppFermatas, fermataFromNoteChordOrRestElement"]}
