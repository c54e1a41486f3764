# Formal model of converter21 in Lean 4

This directory holds a hand-written Lean 4 model of the pure and state-machine core of
`gregchapman-dev/converter21` (Humdrum reader/writer, grid, shared utilities) and machine-checked
theorems about it. The properties are listed in `properties.jsonl`; the theorem(s) that settle each one
are listed in `MANIFEST.json`.

## Trusted base

* Lean 4.33.0's kernel.
* Axioms: only Lean's standard `propext`, `Classical.choice`, `Quot.sound` (checked by `#print axioms`);
  no axiom is declared here, no `sorry`, no `native_decide`, no `bv_decide`.
* The reading of the Python code: nothing in this sandbox can run the code, so each definition cites the
  file and lines it models, and says where it simplifies.
* Python semantics assumed by the models: `str` is a list of code points (`List Char`), `int` is `Int`/`Nat`,
  `fractions.Fraction`/`HumNum` arithmetic is exact rational arithmetic (`Rat`), a raised exception is a value
  (`Except`/`Option`), a dict is a total map or association list, object identity is modelled only
  where the property is about aliasing.
  `re` patterns are replaced by the hand-written matcher they denote, named in the comment.

### Not modelled

* music21 itself (streams, notes, spanners), lxml/ElementTree parsing, file I/O, the CLI.
* MEI and MusicXML tree walking (only pure helper functions).
* Floating point (`float` quarter lengths are taken to be the exact rationals music21's `opFrac` gives).
* Of `humdrumfile.py` (the import into music21 objects): everything but the state machines named below (repeat endings, pedals,
  tuplet display, system decoration, text decoding, rest positions, tie parameters).
* Of `humdrumwriter.py`: the walk over music21 objects; the model starts from the events and texts that walk produces.
* `humdrumfilestructure.py`: strands and the rhythm of non-rhythmic spines; `humdrumfilebase.py`: the repairs of the lenient mode.
* `eventdata.py`, `staffdata.py`, `partdata.py`, `scoredata.py` except where a property cites them; `mei/*`, `musicxml/*`.

## Layout

`lean/Verif/Model/*.lean`  model definitions, with citations.
`lean/Verif/Lemmas/*.lean` helper lemmas.
`lean/Verif/Spec/*.lean`   small independent specifications used in theorem statements.
`lean/Verif/Props/*.lean`  the property theorems, each followed by an `example` showing its hypotheses are met.

## What is modelled

Each definition cites its lines; what a module leaves out is said in its comments.

* `Accidental.lean` (humdrumfilecontent.py, humdrumtoken.py): humdrumfilecontent.py:1071-1585: accidentals.
* `Arpeggios.lean` (meireader.py): Model of the arpeggios of an MEI file: `MeiReader._ppArpeggios` (converter21/mei/meireader.py:1572-1652) and `addArpeggio` (2508-2533), by which a note finds its arpeggios. Simplifications: the random id of a spanner is the position of its element, and the type of the spanner is written beside it; `@plist` is given split at spaces. The note is taken to have no attributes of these names in the file.
* `Barlines.lean` (convert.py, gridcommon.py, humdrumfile.py, humgrid.py, m21convert.py, measuredata.py): Barline styles: humdrum/gridcommon.py:95-164, humdrum/convert.py:1397-1450, humdrum/m21convert.py:3032-3351, humdrum/measuredata.py:165-201, humdrum/humgrid.py:1021-1082 and humdrum/humdrumfile.py:1225-1293, 5592-5698.
* `ChordText.lean` (m21utilities.py, meireader.py, sharedconstants.py): Model of the text of chord symbols: `M21Utilities.convertChordSymbolFigureToPrintableText` (converter21/shared/m21utilities.py:2979-3023), used by the MEI writer and by the Humdrum reader, and `convertPrintableTextToChordSymbolFigure` (3026-3070), used by the MEI reader (mei/meireader.py:8191).
* `ClefMeter.lean` (humdrumtoken.py, m21convert.py): Clef, time signature and mensuration tokens: written on export, read on import. Models converter21/humdrum/m21convert.py 37-49 (mensuration symbols), 657-673 (m21TimeSignature), 743-767 (m21Clef), 2445-2494 (clefTokenFromM21Clef, timeSigTokenFromM21TimeSignature, meterSigTokenFromM21TimeSignature) and converter21/humdrum/humdrumtoken.py 1326-1333 (clef), 1455-1500 (isTimeSignature, timeSignature), 1544-1567 (mensurationSymbol).
* `Content.lean` (humdrumfile.py, humdrumfilecontent.py, m21convert.py): humdrumfilecontent.py: rest positions, text repetition, rhythmic scaling, spine colors.
* `Dates.lean` (m21utilities.py): shared/m21utilities.py:2145-2480: Humdrum dates.
* `Decoration.lean` (humdrumwriter.py, m21convert.py, m21utilities.py): Staff groups written as a system decoration: humdrum/humdrumwriter.py:838-930, shared/m21utilities.py:105-121 and 1735-1794.
* `DurSplit.lean` (m21utilities.py): Note values in shared/m21utilities.py. `opFrac` is modelled by exact rational arithmetic: music21's `opFrac` keeps fractions with denominators up to 65535 exactly, and products by 2/3, 4/7 and 8/15 that pass through a float come out exact for dotted powers of two.
* `DynPlace.lean` (humdrumfile.py, humdrumwriter.py, m21convert.py): Where dynamics and hairpins stand: the placement parameters of the exporter (humdrum/m21convert.py:2264-2296, 2414-2441), the interpretations that set the place for a spine (humdrum/humdrumfile.py:2863-2917), the search of `**dynam` tokens from a note and the place read from them (humdrum/humdrumfile.py:8564-8903, 8944-9055, 12619-12774).
* `Events.lean` (eventdata.py, humdrumwriter.py, measuredata.py): The events of a measure and the order in which the exporter handles them (humdrum/measuredata.py, humdrum/humdrumwriter.py).
* `ExportRecip.lean` (m21convert.py): m21convert.py:1509-1640: the rhythm written for a music21 duration.
* `FixBeams.lean` (m21utilities.py): Model of `M21Utilities.fixupBadBeams` (converter21/shared/m21utilities.py:4067-4179), which repairs the beams of a score. Simplifications: a note is its name, whether it is left aside (a grace note or a chord symbol) and its beams; a part is the list of its measures, and a measure the list of its voices, each with its id. The id of the measure itself, used if it has no voices, is one of the ids. Ids of the voices of one measure are distinct. The code changes notes in place, looking at one note to change the note before it: every note is changed at most once, when the next one is looked at, and the next one was not changed by then. So the model changes each note by looking at the next one as it was.
* `FixDur.lean` (humdrumwriter.py, m21utilities.py): The repair of durations before every Humdrum export (humdrum/humdrumwriter.py:379-381; shared/m21utilities.py:4207-4460). Times are exact numbers.
* `Grid.lean` (gridcommon.py, gridpart.py, gridside.py, gridslice.py, gridstaff.py, gridvoice.py, humgrid.py): The grid of the exporter: cells, lines and header lines (humdrum/gridcommon.py, gridvoice.py, gridstaff.py, gridside.py, gridslice.py, humgrid.py).
* `Harte.lean` (m21utilities.py): Model of chord symbols as Harte texts: /repo/converter21/shared/m21utilities.py:3103-3680.
* `HumArpeggio.lean` (humdrumfile.py, m21convert.py): Model of arpeggios on a line of a Humdrum file: the marks written by /repo/converter21/humdrum/m21convert.py and the arpeggios /repo/converter21/humdrum/humdrumfile.py reads from them.
* `HumBeams.lean` (humdrumfile.py, m21convert.py): Beams in Humdrum: how the writer marks them (humdrum/m21convert.py:2874-2901, 1420-1476), and how the reader finds the groups of a layer in a measure (humdrum/humdrumfile.py:4193-4368, 4367-4500) and gives beams to the notes (3366-3463, 3587-3718). Simplifications: the number of beams of a note (from its duration, 3521-3585) is a field of the token. Tremolos (tokens that are suppressed or have the value tremoloBeam), the beams of grace notes (after the analysis) and the direction of beams are left out.
* `HumChords.lean` (humdrumfile.py, humdrumtoken.py, m21convert.py): Chords in Humdrum: humdrum/m21convert.py:1357-1498 (export), humdrum/humdrumfile.py:6249-6350 (import) and humdrum/humdrumtoken.py:2828-2889 and 2933 (layout parameters of single notes of a chord).
* `HumDynam.lean` (humdrumfile.py, humdrumwriter.py, m21convert.py): Dynamic marks in **dynam tokens: written on export, read on import. Models converter21/humdrum/m21convert.py 2176-2230 (dynamicPatterns, dynamicBrackets, getDynamicString), 2303-2340 (the text part of getDynamicParameters) and converter21/humdrum/humdrumfile.py 8760-8850 (the dynamics part of _processDynamics for one **dynam token). The regular expressions are matched by hand: each pattern is a sequence of runs of different letters, and what follows must be white space or the end, so the longest runs are the only possible match.
* `HumHairpin.lean` (humdrumfile.py, humdrumwriter.py, m21convert.py, measuredata.py): Hairpins in **dynam spines: written on export, read on import. Models converter21/humdrum/m21convert.py 2232-2257 (getDynamicWedgeString), humdrumwriter.py 2440-2490 and 2915-2930 (the text of the token of a part at one time) and converter21/humdrum/humdrumfile.py 8944-9080 (which hairpins _processHairpin makes, and from where to where), 9447-9473 (_getHairpinEnd). A spine is the list of the texts of its rows; a null token is the empty text. Starts and ends are rows. The search for the notes at these times, placement and colour are not modelled.
* `HumHarm.lean` (humdrumfile.py, humdrumwriter.py, m21convert.py): Chord symbols in Humdrum: humdrum/humdrumwriter.py:2946-3025, humdrum/m21convert.py:286-334, 411-450 and 2333-2367 and humdrum/humdrumfile.py:1697-1787 and 10223-10267. The texts of single chords (`**harte`) are modelled in Model/Harte.lean.
* `HumHash.lean` (humhash.py): Model of /repo/converter21/humdrum/humhash.py. Values are an arbitrary type `α` (Python: any object, or None), origins an arbitrary type `τ` (HumdrumToken). A raised ValueError is `none` at the outermost `Option`.
* `HumLyrics.lean` (gridside.py, gridslice.py, humdrumfile.py, humdrumtoken.py, humdrumwriter.py): Model of lyrics in **text spines: what is written for the lyrics of the notes of one line (/repo/converter21/humdrum/humdrumwriter.py, gridside.py) and what is read from it (/repo/converter21/humdrum/humdrumfile.py, humdrumtoken.py).
* `HumMeasures.lean` (humdrumfile.py, humdrumtoken.py, humgrid.py, measuredata.py): Model of measures: how /repo/converter21/humdrum/humgrid.py puts barlines between the measures of a score, and how /repo/converter21/humdrum/humdrumfile.py finds the measures and their numbers in the lines of a file.
* `HumMeta.lean` (convert.py, humdrumfile.py, humdrumwriter.py, m21convert.py, m21utilities.py): Metadata in Humdrum: the reference records written (humdrum/humdrumwriter.py:563-834; humdrum/m21convert.py:3353-3488; shared/m21utilities.py:2722-2749) and read (humdrum/humdrumfile.py:889-960, 10755-10937; shared/m21utilities.py:2806-2918). Letters are ASCII.
* `HumOttava.lean` (gridmeasure.py, humdrumfile.py, humdrumwriter.py, m21convert.py, m21utilities.py): Model of octave lines (ottavas) of one kind in one staff: the marks written by /repo/converter21/humdrum/humdrumwriter.py and what /repo/converter21/humdrum/humdrumfile.py reads from them. The four kinds (8va, 8ba, 15ma, 15ba) have separate state variables and identical code, so one kind is modelled.
* `HumParts.lean` (humdrumfile.py, humdrumtoken.py, humdrumwriter.py, m21convert.py, m21utilities.py, partdata.py): The start of a staff's spine in a Humdrum file: instrument name, abbreviation and transposition, clef and signatures. Models converter21/humdrum/humdrumwriter.py 1235-1297, 1974-1993, partdata.py 79-112, m21convert.py 770-803, 2496-2510 (written) and converter21/humdrum/humdrumfile.py 598-628, 11868-12058 with humdrumtoken.py 1051-1745 (read).
* `HumReh.lean` (gridmeasure.py, humdrumfile.py, humdrumwriter.py, humgrid.py, m21convert.py, m21utilities.py): Rehearsal marks: humdrum/m21convert.py:1811-1926 and humdrum/humdrumwriter.py:2761-2787, 3072-3090 (written as `!!LO:REH` lines), humdrum/gridmeasure.py:773-778 and 805-861 and humdrum/humgrid.py:961-974 (where the lines go), humdrum/humdrumfile.py:10495-10720 and 12829-12873 (reading).
* `HumSlurs.lean` (humdrumfile.py, m21convert.py): Slurs in Humdrum files: m21convert.py 1306-1345 (written), humdrumfile.py 7362-7462 (read). One spine with one layer; the notes (or chords) are the tokens (0, 0), (1, 0), …. Other lines hold no slur marks and are left out.
* `HumTempo.lean` (convert.py, gridmeasure.py, humdrumfile.py, humdrumtoken.py, humdrumwriter.py, m21convert.py): Model of tempo marks in Humdrum: the `*MM` interpretation, the names of the beat notes in tempo texts and the `!!!OMD:` records (/repo/converter21/humdrum/m21convert.py, convert.py, humdrumtoken.py, humdrumwriter.py, humdrumfile.py).
* `HumText.lean` (convert.py, humdrumfile.py, humdrumwriter.py, m21convert.py): Text directions as they are read: humdrum/humdrumfile.py:9481-9506 and 9585-9873. They are written by `textLayoutParameter` (Model/Text; humdrum/m21convert.py:1724-1808, humdrum/humdrumwriter.py:3032-3069). The second half of `_processDirections` (9499-9577) reads parameters of the token itself, which nothing sets, and is left out.
* `HumTies.lean` (humdrumfile.py, m21convert.py): Ties in Humdrum files: m21convert.py 2988-3030 (written), humdrumfile.py 274-317, 840-879, 7744-7749, 8248-8450 (read). Linked ties (the RDF link signifier) are never written by the exporter; they are modelled in Model/Tie and left out here.
* `HumTuplets.lean` (humdrumfile.py): How the Humdrum reader finds tuplets in a layer of a measure: humdrum/humdrumfile.py:4508-4887 (second half of `_prepareBeamAndTupletGroups`), 4939-5163 (`_assignTupletScalings`, `_assignScalingToTupletGroup`, `_mergeTupletsCuttingBeam`), 5224-5262, 5493-5570, and how it gives them to the notes: 3407-3434 (`_handleGroupState`), 3471-3515 (`_makeTuplet`). Simplifications: only the items with a duration (`durItems`) are here; all others have no part in tuplets. Beams are a list of pairs of places (first and last item). Python's logarithms are exact here. `durationTupleNormal` is left out: `_handleGroupState` gives None to `_makeTuplet`. Tremolos are left out.
* `IsoDates.lean` (m21utilities.py): shared/m21utilities.py:1797-2143: ISO and EDTF dates.
* `KernArtic.lean` (humdrumfile.py, m21convert.py): Articulations and fermatas of a **kern note token: how the exporter writes them and how the importer finds them again. Models converter21/humdrum/m21convert.py 182-205 (the two tables), 454-595 (m21Articulations), 2538-2562 (_getHumdrumStringFromM21Articulations), the fermata branch of _getHumdrumStringAndLayoutsFromM21Expressions (2629-2633), the order of the parts of a note's token (1041-1063 and 1170-1210), and converter21/humdrum/humdrumfile.py 6907-6952 (_addFermata) with 7352-7362 (_getDirection).
* `KernLook.lean` (humdrumfile.py, m21convert.py): How a note looks in **kern: grace notes, noteheads, stems, cue size, color, invisible notes. Models converter21/humdrum/m21convert.py 882-898, 1041-1063, 1066-1110, 1140-1173, 1211-1236, 1346-1355, 2912-2925 (written) and converter21/humdrum/humdrumfile.py 7466-7483, 7557-7564, 7611, 7726-7742, 7764-7776, 7858-7870, 7913-7953, 8490-8525 (read).
* `KernOrn.lean` (humdrumfile.py, humdrumfilecontent.py, humdrumwriter.py, m21convert.py): Trills, mordents and turns in the **kern token of a note: written on export, read on import. Models converter21/humdrum/m21convert.py 2578-2649 (the ornament and trill extension parts of _getHumdrumStringAndLayoutsFromM21Expressions), 2665-2815 (_getHumdrumStringAndLayoutsFromM21TrillMordentTurn) and converter21/humdrum/humdrumfile.py 6694-6726 (_addOrnaments), 6733-6818 (_addTrill, up to the trill extension), 6989-7003 (_computeM21Accidental), 7026-7180 (_addMordent), 7207-7340 (_addTurn). The accidentals worked out beforehand (humdrumfilecontent.py 1238-1460) are `ornament` of Model/Accidental. Tokens are single notes here, not chords: no space in the text, subtoken 0.
* `KernPitch.lean` (humdrumfile.py, m21convert.py): The pitch of a note in its **kern token: written on export, read on import. Models converter21/humdrum/m21convert.py 227-249 (m21PitchName), 252-273 (m21StepName), 853-882 (kernPitchFromM21Unpitched, kernPitchFromM21OctaveAndStep), 1643-1713 (accidentalInfo, kernPitchFromM21Pitch) and converter21/humdrum/humdrumfile.py 7566-7604 (the pitch part of _convertNote).
* `KeySig.lean` (humdrumtoken.py, key.py, m21convert.py): Key signatures and key designations (humdrum/m21convert.py:110-178, 676-740, 2513-2538; humdrum/humdrumtoken.py:52, 1388-1447).
* `Line.lean` (humdrumfilebase.py, humdrumline.py, humdrumtoken.py): Lines and files as text: humdrumline.py (classification, tokenising, reference records) and the text part of humdrumfilebase.py (reading, printing, repairs). Lines are immutable values; a mutating method returns the new line.
* `LinkedParams.lean` (humdrumfilestructure.py, humdrumtoken.py): Layout parameters (`!LO:` and `!!LO:` comments) linked to the tokens they are about: humdrum/humdrumtoken.py:2400-2434 and humdrum/humdrumfilestructure.py:349-391 and 737-765.
* `Manip.lean` (gridslice.py, humgrid.py): Spine manipulators inserted by the exporter between two lines: humdrum/humgrid.py:1390-1608, 1640-1995. Staves are held in the order in which they are written on a line (humdrum/gridslice.py:391-410 walks parts and staves from last to first), so the reversed loops of the Python code are forward recursions here.
* `Marks.lean` (eventdata.py, gridmeasure.py, humdrumfile.py, humdrumwriter.py, m21convert.py): The interpretations for the display of tuplets and for pedal marks: what the exporter writes and what the importer makes of them (humdrum/humdrumwriter.py, humdrum/m21convert.py, humdrum/humdrumfile.py).
* `Measure.lean` (gridmeasure.py, humdrumwriter.py): Adding to a measure of the export grid (humdrum/gridmeasure.py; humdrum/humdrumwriter.py:2090-2133). A slice object that a method is given is modelled by its index in the measure. Voice durations are not modelled.
* `MeiAttrs.lean` (m21objectconvert.py, m21utilities.py, meireader.py): Key signatures, time signatures and clefs in MEI (mei/m21objectconvert.py:504-656, mei/meireader.py:819-870, 2018-2136, 5646-5726), and the alterations implied by keys and earlier notes (mei/meireader.py:4090-4124, shared/m21utilities.py:1581-1600).
* `MeiBarlines.lean` (m21objectconvert.py, meimeasure.py, meireader.py): Bar lines in MEI: how the writer puts them in the attributes of measures (mei/m21objectconvert.py:2025-2184, mei/meimeasure.py:210-246) and how the reader takes them out (mei/meireader.py:662-669, 2179-2208, 6884-6913, 9001-9027). Simplifications: one staff (the writer looks at the first staff only, and the reader copies to all staves); sections and endings are flattened (the reader passes the pending left bar line in and out of them); warnings are not modelled.
* `MeiBeams.lean` (meireader.py, meiscore.py): Beams in MEI: mei/meireader.py:2757-2913 (the beams of the notes of a `beam` element), mei/meiscore.py:629-732 (the beam spanners and the secondary breaks that are written), mei/meireader.py:1049-1075 (`beamSpan` elements).
* `MeiEnds.lean` (meireader.py): Model of hairpins and octave lines of an MEI file with a start note and an end note: `MeiReader._ppHairpins` (converter21/mei/meireader.py:1198-1249), `_ppOctaves` (1495-1552), and the functions by which the notes find them, `addOttavas` (2403-2423) and `addHairpins` (2425-2440). Simplifications: the random id of a spanner is the position of its element; placement, staff and time stamps are left out.
* `MeiFermatas.lean` (meireader.py): Model of fermatas attached to notes by id in an MEI file: `MeiReader._ppFermatas` (converter21/mei/meireader.py:1278-1296) and `fermataFromNoteChordOrRestElement` (4537-4571). Simplifications: the note has no `@fermata` attribute of its own. music21's new fermata is upright and of shape `normal`.
* `MeiLayer.lean` (m21objectconvert.py, meilayer.py, meireader.py, meistaff.py): The contents of the layers of an MEI staff: objects, spaces and changes of clef, key and meter (mei/meilayer.py:96-292, mei/meistaff.py:129-142), and the numbers of the layers (mei/meilayer.py:118-148). Simplifications: lengths are exact fractions; objects are given by offset and length in the measure and by whether they can be written at all; beams, tuplets and tremolos are in Model/MeiNesting.
* `MeiNesting.lean` (m21utilities.py, meilayer.py, meireader.py): How beams, tuplets and two-note tremolos are written as nested elements of an MEI layer (mei/meilayer.py:244-272, 446-620), and what the reader makes of a two-note tremolo (mei/meireader.py:6041-6050, 9681-9699). Simplifications: the objects of the voice are numbered from 0; a spanner is given by its kind and its first and last object (the sets of notes in `nestsReasonably` are given as lists); spanners that cross the measure are left out before; staff changes and tremolos on one note, which are opened and closed around a single object, are left out.
* `MeiNote.lean` (m21objectconvert.py, m21utilities.py, meilayer.py, meireader.py, pitch.py): Notes in MEI: the attributes of durations (mei/m21objectconvert.py:658-764, mei/meireader.py:576-594 and 4573-4674), of pitches (mei/m21objectconvert.py:311-392, 766-810, mei/meireader.py:557-571 and 4770-4862) and of tremolos (mei/meilayer.py:310-371, 394-430, mei/meireader.py:5992-6107). music21's `Duration(q)` is a parameter `mk : Rat → String × Nat`, giving the type and the dots that music21 finds for a length. The attribute `dur.ppq` is not modelled: the writer never writes it.
* `MeiOrnaments.lean` (meireader.py): Model of trills, mordents and turns attached to notes by id in an MEI file: `MeiReader._ppTrills` (converter21/mei/meireader.py:1322-1344), `_ppMordents` (1407-1433), `_ppTurns` (1459-1484), and the functions that make the ornaments of a note, `addTrill` (2562-2600), `addMordent` (2602-2664) and `addTurn` (2666-2742). Simplifications: the table of accidentals is a function `acc`, empty for accidentals it does not have. Ornamental pitches, extensions of trills and staves are left out. The three loops write to different attributes and are one loop here.
* `MeiPedals.lean` (meireader.py): Model of the pedal marks of an MEI file: `MeiReader._ppPedals` (converter21/mei/meireader.py:1654-1815), which puts each `pedal` element into a pedal mark, and `MeiReader.addPedals` (2340-2401), which a note uses to find its pedals. Simplifications: the random id of a new mark is the position of the element it was made for. Function, form and placement are left out, and so is `getPedalObject`, which adds a note or an anchor to the mark. The version of music21 is taken to support pedal marks.
* `MeiSection.lean` (debugutilities.py, meimeasure.py, meireader.py, meiscore.py): The measures of an MEI section, with page and system breaks and endings (mei/meiscore.py:128-153, mei/meimeasure.py:126-209), and how they are read (mei/meireader.py:8957-9287, 6783-6810). Simplifications: a repeat bracket is given by its first and last measure (counted from 0), over all parts; the number of a page and the number of an ending are left out (`n` attributes); contents of measures are not looked at.
* `MeiSlurs.lean` (meireader.py, meishared.py): Model of reading slurs from MEI: `_ppSlurs`, `_ppConclude` and `addSlurs` (converter21/mei/meireader.py:877-979, 1908-1944, 2245-2338). Simplifications: notes and chords are numbered in the order in which they are read; notes within chords are left out (their slurs are moved to the chord). A slur is its local id, its placement and the notes and chords it joins in the order in which they were added. The random ids (`uuid4`) are values of a function. An attribute that is missing is empty. music21 is trusted: `addSpannedElements` adds an element that is not there yet at the end, and `getByIdLocal` gives the spanners with the id in the order in which they were added to the bundle.
* `MeiSpanEnds.lean` (m21objectconvert.py, m21utilities.py, meireader.py): Where a spanner (hairpin, octave sign, trill extension …) ends in MEI: the attribute tstamp2, `Nm+B`, as written (mei/m21objectconvert.py:865-990) and read (mei/meireader.py:7155-7185, 8495-8540, 8660-8690). Simplifications: offsets are exact rationals. The decimal of the beat is a text with the value given by `makeTstamp` (`Model/MeiTstamp`); Python's `float()` is a parameter. A measure is its offset in the score and the length of its contents; the measures of one part are a list.
* `MeiStaffGrp.lean` (meireader.py, meiscore.py): Staff definitions and staff groups in MEI: mei/meiscore.py:311-427 (written), mei/meireader.py:495-551, 3372-3435 and 3453-3724 (read).
* `MeiTies.lean` (m21objectconvert.py, meilayer.py, meireader.py, meiscore.py): Ties in MEI: mei/meiscore.py:447-495 and 779-896 (which notes are joined), mei/meilayer.py:641-710 and mei/m21objectconvert.py:978-1035, 1195-1199 (the elements written), mei/meireader.py:1005-1024, 2211-2224 and 4926-4928 (read). One part is modelled: notes of different parts are never joined, and have different ids. A note of a voice is a chord with one note here: the code for a chord does for each of its notes what the code for a note does. Offsets are in the part; lengths are exact fractions. Pitches are compared by `nameWithOctave`, a string.
* `MeiTree.lean` (debugutilities.py, meielement.py, meishared.py): MEI element trees (mei/meielement.py), the tree builder they are written with (shared/debugutilities.py and xml.etree.ElementTree.TreeBuilder) and the text of an element (mei/meishared.py:113-277).
* `MeiTstamp.lean` (m21objectconvert.py, meireader.py): MEI time stamps: how the MEI reader turns a decimal beat into a fraction (mei/meireader.py:7062-7153), and how the writer makes the decimal (mei/m21objectconvert.py:812-863). Simplifications: floats are exact rationals; the rounding errors of float arithmetic are a separate, explicit perturbation in the theorems. `opFrac` (which limits denominators to 65535) is the identity. The text of the decimal is represented by its value.
* `MeiTuplets.lean` (m21objectconvert.py, meireader.py, meiscore.py): Tuplets in MEI: mei/meiscore.py:734-777 (the tuplets that are written), mei/m21objectconvert.py:1316-1355 (their attributes), mei/meireader.py:2938-3097 (`scaleToTuplet`), 3100-3200 (`_guessTuplets`), 6215-6279 (`tupletFromElement`), 4766-4769, 5000-5017 and 5032-5035 (attributes of a note).
* `Names.lean` (m21utilities.py): shared/m21utilities.py: xml:ids, spelling of contributor roles and the table of reference keys. Letters are ASCII here: roles, class names and prefixes are identifiers of music21.
* `NoteTexts.lean` (meireader.py): Model of the directions, dynamics and tempos of an MEI file that are attached to a note by `@startid`: `MeiReader._ppDirsDynamsTempos` (converter21/mei/meireader.py:1817-1906), which writes them to attributes of the note, and `MeiReader.addDirsDynamsTempos` (2442-2504), which makes the objects from these attributes. Simplifications: the text and its styles are given as `MeiShared.textFromElem` returns them, stripped. What is made of text and styles for a direction, a dynamic or a tempo is left out; so is the staff, which is read but not used. The note is taken to have no attributes of these names in the file, so that `_ppConclude` just sets them.
* `NullHoles.lean` (humgrid.py): Model of the invisible rests for places without a token in the grid of the Humdrum writer: `HumGrid.checkForNullDataHoles` (converter21/humdrum/humgrid.py:725-772), called at humgrid.py:445. Simplifications: a token of the grid is any text; the rest that is made is kept as its duration (`durationToRecip` is modelled elsewhere).
* `NullTokens.lean` (gridcommon.py, gridslice.py, gridstaff.py, humgrid.py): Model of the null tokens below a note in an exported Humdrum file: `HumGrid.addNullTokensForNoteDurations` and `extendDurationToken` (converter21/humdrum/humgrid.py:452-577, 653-680) with `setNullTokenLayer` (converter21/humdrum/gridstaff.py:80-115). Simplifications: one voice of one staff is followed; the code goes through all of them, and they do not touch each other's tokens. A line is its kind, its time and the token of the voice. The durations the code stores in lines are left out: the one of a line is used only if no line with spines follows, and then no token depends on it. Lines of the type `Invalid` do not occur. The result `none` stands for a HumdrumInternalError.
* `OutputName.lean` (): Model of the name of the file the command line program writes: `converter21/__main__.py:69-87` and 159-169. Simplifications: the subconverters registered with music21 are a list with their formats and output extensions. `os.path.splitext` is CPython's for `/` as separator, written on the reversed path. Output to `-` is left out.
* `ParamSet.lean` (humdrumline.py, humparamset.py): Model of /repo/converter21/humdrum/humparamset.py (parameter sets of layout comments).
* `Pending.lean` (humdrumwriter.py): humdrum/humdrumwriter.py:62-65 and 2135-2199: the stops of octave lines and pedal marks that wait for their time.
* `Pitch.lean` (convert.py): Pitch conversion: convert.py:839-1396. Python's `//` and `%` with a positive divisor are Lean's `Int` `/` and `%` (floor division).
* `PyDict.lean` (): Python `dict` as an insertion-ordered association list. Models the CPython built-in (insertion order, update in place, `del`), not code of /repo.
* `PyNum.lean` (): Decimal printing and parsing of Python ints, and the exceptions of the modelled code. Only ASCII digits are modelled (Python's `\d` and `int()` also accept other Unicode digits).
* `PyStr.lean` (): Python `str` methods used by the modelled code, on `List Char`. These model CPython built-ins, not code of /repo; the trusted reading is the Python language reference.
* `ReadDecoration.lean` (humdrumfile.py, m21convert.py, m21utilities.py): The system decoration read back: humdrum/humdrumfile.py:11150-11590 and 11680-11830.
* `Recip.lean` (convert.py, gridslice.py, humdrumfilestructure.py, humdrumtoken.py): Model of the rhythm conversions of /repo/converter21/humdrum/convert.py. `HumNum` (Fraction, or the float music21's `opFrac` uses for a dyadic rational) is an exact `Rat`.
* `RestVoice.lean` (humdrumwriter.py): Voices of invisible rests, which the exporter adds for objects that start where no note of their staff does (humdrum/humdrumwriter.py:2396-2690).
* `Rhythm.lean` (humdrumfilestructure.py, humdrumline.py, humdrumtoken.py): Rhythm analysis of a file: humdrumfilestructure.py analyzeRhythmStructure and the passes it calls, in strict mode (acceptSyntaxErrors False). Times are exact rationals; -1 is the code's "not known" (humdrumline.py:114-138).
* `Sections.lean` (gridmeasure.py, humdrumfile.py, humdrumwriter.py): Repeat endings: written as section names (humdrum/humdrumwriter.py:1030-1190), read from section names (humdrum/humdrumfile.py:1086-1150 and 12304-12356).
* `SigChanges.lean` (humdrumfile.py): Key and time signature changes in the measures of a Humdrum file: which signatures are put into which staff's measure, and which staff remembers its new key (ornaments are resolved with that key later). Models converter21/humdrum/humdrumfile.py 1355-1450 (_addKeyTimeChangesToSystemMeasures). The token tests (isTimeSignature, isKeySignature, isKeyDesignation, isMensurationSymbol) exclude each other and are given as the kind of a token. The objects made by M21Convert.m21TimeSignature and m21KeySignature are arbitrary functions of the texts (`mkTime`, `mkKey`); m21KeySignature may return None.
* `SigExport.lean` (humdrumfile.py, humdrumtoken.py, humdrumwriter.py, m21convert.py): The lines of clefs, key signatures and time signatures the exporter writes at one moment of a measure: humdrum/humdrumwriter.py:1489-1645 (`_appendZeroDurationEvents`) and 1726-2057 (`_addClefLine` to `_fillEmpties`), and the lines as the importer sees them (humdrum/humdrumfile.py:1378-1411; humdrum/humdrumtoken.py:1388, 1437, 1455, 1545).
* `Signifier.lean` (humdrumfile.py, humdrumfilestructure.py, humdrumline.py, humdrumwriter.py, humsignifiers.py): humsignifiers.py and the RDF records of humdrumwriter.py.
* `Slur.lean` (convert.py, humdrumfilecontent.py, humdrumtoken.py): humdrumfilecontent.py: slur and phrase analysis.
* `Spine.lean` (humaddress.py, humdrumfilebase.py, humdrumline.py, humdrumtoken.py): Spine bookkeeping: humdrumfilebase.py analyzeSpines, adjustSpines, getMergedSpineInfo, addToTrackStarts, stitchLinesTogether, analyzeLinks; humdrumline.py analyzeTracks. This is the strict mode (`acceptSyntaxErrors` False, the default); the repairs of the lenient mode are not modelled. A token is identified by (line, field). A recorded parse error is `.error .humdrumSyntax`.
* `SpineDurs.lean` (humdrumfilestructure.py): Model of the durations of tokens in spines without a rhythm of their own, such as dynamics and text: `HumdrumFileStructure.assignDurationsToNonRhythmicTrack` (converter21/humdrum/humdrumfilestructure.py:690-730), called for each end of a track (400-410). The tokens of a track are given as the code meets them: from the end backwards. Where spines merge, the code turns to the other spines first (709-718). Simplifications: a spine that merges into another one ends at its split; the code gets there too and stops, because the name of such a spine has a `b` (699-703). The first token of a track, where the code stops (705-707), is not a data token. `acceptSyntaxErrors` is off.
* `SpineGrid.lean` (gridcommon.py, gridmeasure.py, gridslice.py, humgrid.py): From the grid of an exported score to the lines of the file: bar lines, spine manipulators and the order of the lines, humdrum/humgrid.py:340-380, 939-1050, 1214-1385, 1540-1608 and humdrum/gridmeasure.py:785-862. A line of the grid is its kind, a name for what is on it, and the number of voices of each staff in the order in which the staves are written. Side spines (lyrics, dynamics, chord symbols) have one token on every line and are left out. The steps of `transferTokens` that change no number of voices (humgrid.py:341-349, 352-353, 358-363) are left out too, and so are lines marked invalid (gridmeasure.py:818-821).
* `Strands.lean` (humdrumfile.py, humdrumfilestructure.py, humdrumtoken.py): Strands, the unbroken stretches of spines, and the tokens null tokens stand for: humdrum/humdrumfilestructure.py:767-833 and 851-888, humdrum/humdrumtoken.py:2688-2699, and the color of a note from a `**color` spine, humdrum/humdrumfile.py:7876-7906.
* `Text.lean` (humdrumfile.py, m21convert.py, sharedconstants.py): Model of the text export helpers of /repo/converter21/humdrum/m21convert.py and of the decoding done when a text direction is imported (/repo/converter21/humdrum/humdrumfile.py).
* `Tie.lean` (humdrumfile.py, humdrumfilecontent.py): humdrumfilecontent.py: linked ties.
* `Token.lean` (convert.py, humdrumtoken.py): humdrumtoken.py: cached properties of a token, and its subtokens. `Query` (Spec/Token) names the cached properties. A cache slot is the Python attribute `_...Cached`: absent (`none`) or a value.
* `Tremolo.lean` (humdrumfilebase.py, humdrumtools.py): The expansion of tremolos (humdrum/humdrumtools.py:28-507) and null data lines (humdrum/humdrumfilebase.py:1355-1410). Spines are columns: files without spine manipulators in tremolos.

## Plan per property

* **C01** HumHash as nested association lists, methods branch by branch; refinement to a function `address → Option value` by induction over the operation history.
* **C02** The two fix-up functions on `List Char`; equality of normal forms for colon-free parts. The single-argument `NS1:NS2` form of the query functions is suspected broken: prove the negation with a witness and the remaining forms as `_partial`.
* **C03** Same model, with origins; refinement by induction over the history.
* **C04** readString as split/first-'='; round trip by induction on the parameter list. Un-escaping of `&colon;` is discarded in the code: negation plus `_partial`.
* **C05** recipToDuration/durationToRecip over `Rat`, decimal printing/parsing proved inverse; case split on the special numerators.
* **C06** Cache as an association list in the state; invariant "cached value = uncached value at scale used". `scale` not in the key: negation plus `_partial` for the constant-scale histories.
* **C07** Algebra over `Rat`, induction on the number of dots.
* **C08** Letter/octave/accidental printing, base40 arithmetic; finite residue table lifted by a lemma to all octaves.
* **C09** Same.
* **C10** Decimal integer printing/parsing.
* **C11** Tokeniser with tab runs; induction over the text.
* **C12** readString/`__str__` on split/join at newline.
* **C13** Prefix predicates; exhaustive and exclusive by case analysis.
* **C14** Key/value accessors; universal accessors suspected broken: negation plus `_partial`.
* **C15** adjustSpines over a list of spine descriptors; the active-spine count is compared with an independent specification of the Humdrum rules; whole files by induction.
* **C16** getMergedSpineInfo on split trees; structural induction.
* **C17** stitchLinesTogether as link relation built by the code's two-pointer walk; symmetric by construction of the link operations, totality by induction.
* **C18** analyzeTracks; induction over tokens.
* **C19** assignLineDurations/fillInMissingStartTimes; telescoping by induction.
* **C20** analyzeMeter's two passes; induction in both directions, compared with a declarative "time since last barline".
* **C21** analyzeNullLineRhythms; arithmetic over `Rat`.
* **C22** lcm over denominators; least property.
* **C23** Lines with index field; invariant by induction over insertions.
* **C24** Token state with cache slots; coherence invariant over all histories; dependence on the null-resolution text: negation if real.
* **C25** split/join on spaces.
* **C26** Stack machine; nestedness and uniqueness invariants.
* **C27** Same machine parametrised by the bracket characters; the code counts '(' for phrases: negation.
* **C28** Map from pitch to open start; invariants.
* **C29** Accidental state machine; decode-after-encode theorem by induction over events.
* **C30** Integer arithmetic on base-7 numbers.
* **C31** Rows as references into a heap to expose aliasing: negation.
* **C32** Parallel lists lengths; invariant over all records.
* **C33** Injective assignment invariant over all request histories.
* **C34** Sorted-insertion invariant over all histories; frame theorem.
* **C35** Nested lists with growth; get/set laws.
* **C36** Column counts by summation.
* **C37** Count algebra for manipulator tokens, chain correctness for `*^n`; staff interaction in contraction suspected broken: negation plus `_partial`.
* **C38** Association map from (part, staff) to lists; history induction.
* **C39** Injectivity of the generated sequence.
* **C40** Greedy decomposition with fuel-free recursion on the list of sizes; sums. Crossing variant suspected broken: negation plus `_partial`.
* **C41** Number theory on powers of two.
* **C42** Positional numeral injectivity and absence of '-'.
* **C43** Field-wise printing/parsing; zero hour/minute/second: negation plus `_partial`.
* **C44** Same; negation plus `_partial`.
* **C45** Character-level conversion; induction.
* **C46** Finite table, lifted to all measure numbers.
* **C47** Finite table, complete.
* **C48** Character-level rewriting; absence invariants.
* **C49** Scanner with explicit IndexError; negation plus `_partial`.
* **C50** Finite tables; non-standard signatures: negation plus `_partial`.
* **C51** Arithmetic progression of start times; sums.
* **C52** Rational arithmetic on dots and tuplets; negation plus `_partial`.
* **C53** Recursive tree printing; induction over trees.
* **C54** Counter invariant over histories.
* **C55** Table of note values.
* **C56** Sorted insertion.
* **C57** State machine over tokens.
* **C58** Whole finite table, plus the default case for every other name.
* **C59** Invariant of the spine loop: the flattened table of ends grows by exactly the terminators of each line. The per-track half is false (terminators go to the last track): negation with a two-spine file.
* **C60** Invariant of the walk over links (visited tokens and line times), by induction on the walk: an arrival time for every visited token. After a merge only one of the previous tokens is checked: negation with a two-line file.
* **C61** Completeness of the walk by induction on the distance to the end of the file (links lead to later lines), then the passes over the lines preserve order.
* **C62** Model findKnown/visitFloating; specification: inductive relation LeadsTo over first links. Code takes time 0 for "not found", so a spine added before the first note is rejected (negation proved); the rest is proved from visit_sound.
* **C63** footerRecords and readSignifiers modelled; composition proved for all requests with plain colors; negation for colors containing a word with another meaning.
* **C64** The tables are modelled as literal lists, the lookups as list searches; the round trip is proved by a complete check of the tables (they are the whole domain) and, for role spellings, for all strings.
* **C65** Model the state machine; induction over the measures with the invariant that the current name is the k-th.
* **C66** Simulation between the writer's and the reader's state machine, by induction over the segments; false for neighbouring brackets of the same number and for number 0.
* **C67** Model the backward walk of a strand and the forward walk over the lines; characterise the calls made for each token; fold lemmas for increasing and decreasing lines.
* **C68** Model the lexing, cleaning, bracket pairing and the walk that makes the groups; structured decorations; the exported one has structure; induction for pairing and for the walk. Without the cover hypothesis it is false: a staff outside every group makes the reader reject the whole decoration.
* **C69** Spines as a list of identifiers; music and header lines are both maps over it; negation when the first slice is a global line.
* **C70** Stable sort, bins, and the merging loop as a fuelled function; invariant: what is left of each staff is in strict order and not before the current time. Negation: a staff without events between others.
* **C71** The loop over the elements with the splitting of C40; induction over the elements. Negation: a gap of two rests.
* **C72** The updates of the lines voice by voice; induction.
* **C73** Exporter and importer as two state machines over the items of the voices; the states agree after each tuplet. Negation: a tuplet of the second voice that begins first.
* **C74** Token stream with look-around; first it is shown that only pedal tokens matter, then induction over marks and bounces. Negation: marks that touch.
* **C75** Model/RestVoice follows the search for a line, the split of the measure at the object, the rests and the completion of the other lines. Induction over the rests with the invariant that a staff has at most n voices or one more that ends in a rest. The full claim fails (the split loses a note in some measures: C40), so a `_partial` theorem excludes those places.
* **C76** Model/MeiTree: trees, the calls on the tree builder and the builder itself; induction over the tree with the builder's stack generalised; searches compared with a filter of the document order.
* **C77** Model/MeiTree, Spec/MeiTree (TextOf, a relation that says what the text is); mutual induction over trees; witnesses where text is lost or doubled.
* **C78** Model/MeiTstamp: the loop with explicit errors for non-termination and division by zero; invariant: the number is a combination of two convergents with determinant 1 or -1; best approximation; then the error of six significant digits against the distance of simple fractions.
* **C79** Model/MeiBarlines: tables and combination as functions on the attribute values; induction over the measures with the pending left bar line; algebra of the combination by its finite table.
* **C80** Model/MeiNote: writer and reader as functions on the attributes; music21's Duration(q) is a parameter that is only assumed to find type and dots of simple lengths; case analysis on which attributes are left out.
* **C81** Model/MeiNote; specification by alteration in semitones and sounding octave; tables by case, octaves by the integer round trip.
* **C82** Model/MeiNote: the tables; the quantifier is finite (types and marks).
* **C83** Model/MeiAttrs; iff theorems for sharps and meters; music21's key arithmetic as parameters.
* **C84** Model/MeiAttrs: state machine with Python's negative indices; invariant by induction over the events against the rule of notation.
* **C85** Model/MeiNesting: the events written; induction over the objects with the invariant that the stack of open elements is sorted by length and kind, so that both sorts meet in the same list.
* **C86** Model/MeiLayer: the items written for a layer and the positions the reader gives them; induction over the objects with the time written so far.
* **C87** Model/MeiLayer: layerNumbers; induction over the voices.
* **C88** Model/MeiSection: events written and the reader as a state machine; invariant over the number of measures read.
* **C89** Model/MeiStaffGrp: the elements written, with the iteration order of sets as a parameter; induction over the trees (shared with C53) and over the staves.
* **C90** Model/MeiStaffGrp: the recursion and the matching by position; the order in which parts are made is computed and shown equal to document order exactly when staves come before subgroups.
* **C91** Model/MeiTies: the list of open ties, over objects, measures and parts, and the reader's attributes; invariant: the open ties are those of the last note of each pitch.
* **C92** Model/MeiBeams: the passes of the reader over the things of a beam element, the writer's state over the notes of a voice; a closed form of each beam from its neighbours, by induction over the group.
* **C93** Model/MeiTuplets: the writer's stack over the notes of a part, the attributes, the reader's passes; trees of tuplets as specification; induction over the tree with the stack steps as a balanced sequence.
* **C94** Model/MeiSpanEnds: search of the end measure, text, regular expression, list of waiting ends; induction over the measures; tstamp_round_trip_partial for the beat.
* **C95** Model/HumBeams: text of the beams, running sums, numbering, breaks, walk over the layer. Spec: beams as joins of neighbouring notes. Induction over segments of the layer with an explicit closed form of the analysis, then over the notes of a group.
* **C96** Model/HumTuplets: all passes on the items with a duration. Spec: segments (plain item or tuplet), the relation of joining, the marks each item should get. Passes shown to act on an explicit closed form; merging by induction over the items left.
* **C97** Model/KernArtic: the writer, the character scan with its three dictionaries, the table loop, the fermata branches. Spec: which classes have a sign, the stacking order, nothing attached twice. Induction over the list of articulations.
* **C98** Model/SigChanges: the collecting fold with the leftover loop variable and the per-staff loop. Spec: the tokens of one staff, the only signature among them. Projection of the fold to one staff, then induction.
* **C99** Model/KernPitch on top of Model/Pitch. Spec: the spelled name of a step and a number of semitones. Induction over the repeated letters and the surrounding text.
* **C100** Model/ClefMeter: writers and readers on characters. Spec: the description handed to music21 (letter and line, octave change), the fraction. Direct proofs with lemmas on runs of digits.
* **C101** Model/KernOrn on top of Model/Accidental. Spec: the kinds of ornaments, seconds with their sizes in semitones and base 40. Lemmas on finding the only letter of a class; case analysis.
* **C102** Model/HumDynam: the regular expressions as small matchers, writer, layout comment, reader. Spec: the marks as an inductive family, words of a text. Soundness and completeness of the matchers, uniqueness of the dynamic word, then round trips.
* **C103** Model/HumHairpin: rows of texts, the reader's search. Spec: hairpins from row to row, one after the other, marks in three places of each row. Signs of a row characterised by membership; induction over rows.
* **C104** Model/HumTempo: tokens, the regular expressions as functions, OMD records. Spec: table of note lengths, standard form of texts. Greedy and lazy groups by induction over the text; records by induction over the tempos.
* **C105** Model/HumLyrics: verses put in order, columns, fields, elisions and hyphens, labels. Spec: good syllables and fields. Columns by the verse at each position, texts by induction over words.
* **C106** Model/HumOttava: marks between the lines of a staff, items met by the reader voice by voice, state of the current ottava, extent after ordering. Spec: staff without gaps, ottavas containing what starts in them. Simulation of writer and reader, by induction over lines and measures.
* **C107** Model/HumMeasures: lines of a file, barlines put between measures, measures found again, numbers searched in texts. Spec: measures with lengths and data and kept numbers. Induction over segments between barlines.
* **C108** Model/HumArpeggio: colons written per cell; walks to the left and right. Spec: notes grouped by their arpeggio. Walks as takeWhile of filters; unique cut at the first note of a group.
* **C109** Model/Harte: tables, bass interval, degree lists, the pattern of the text, the search for a kind. Spec: the set of degrees of a chord. Tables checked by the kernel over their rows; loops over modifications and kinds by induction. music21's table of kinds is a parameter with stated conditions.
* **C110** Model/HumTies: signs and layouts written into the token, the list of open ties, the search, the style, hanging ties. An invariant over the walk says what each note's tie can be; chains of ties by induction. Linked ties are in C28.
* **C111** Model/HumSlurs on top of Model/Slur: parentheses with placement signs written into the tokens, the slur analysis, and the reader of the recorded ends. The stack of open slurs is described by an invariant over the walk (sorted by last note); the recorded numbers give back the placements.
* **C112** Model/KernLook on top of Model/Signifier, Model/Recip and Model/KernArtic: the token of a note with the characters handed out for it while the whole score is written, the records at the end of the file, and the reader. The invariant of the signifier table (C33, C63) says that the table at the end has the characters every token was written with; every character of a token is traced to its part.
* **C113** Model/HumParts: the tokens the exporter writes for an instrument, and the reader's chain of tests over the tokens before the first data line. The spec is a list of items with their texts; the scan is proved by induction on the list to find the first clef and the last of every other kind; the instrument follows with the round trip of transposition strings (C10).
* **C114** Model/HumReh: the line written for a mark, the order of the slices of a measure with the held back first barline, the reader's loop over the parameters with its defaults. The line is proved to be a list of pieces without colons, so C04's reader splits it again; each piece's effect on the reader's variables is computed, and the marks of a measure follow by induction. The order of slices is proved by induction for every list of slices.
* **C115** Model/HumHarm: the writer's loop over the symbols of a measure with its numbers per place, the layout comments, the reader's loop over the texts of a token and its search of the linked comments, and the mxhm texts. The cell of a place is proved to depend only on the symbols of that place, to hold their texts joined by blanks and their comments numbered from 1; the reader's search is proved by induction to find in numbered comments only those of its own number. The text of a single Harte chord is C109; here it is a parameter.
* **C116** Model/HumChords: the token and the comments of a chord, the reader's loop over the subtokens, hidden state and stem direction, and the search for a layout parameter by note number. By induction over the notes, with the pitch of one note from C99 and layout texts from C04.
* **C117** Model/SigExport: the loop over the events of a moment, the lines of tokens in the grid of parts and staves, and the lines as the importer reads them. The text on each staff of each line by induction over events, parts and entries; then with C50, C98 and C100 the objects the importer makes.
* **C118** Model/DynPlace: the parameters as written, the state set by interpretations, the search from a note and the merge of parameter and state. The written comment is read as a parameter set (C105's lemmas), the search by induction over the tokens of the line.
* **C119** Model/Strands: the walk that finds the strands over the links of C17, the sorted list, the loop that resolves null tokens and the color search. The strands of a spine are a permutation of the tree the links unfold to; the tree has every token of a line once, by induction over the lines with C15's groups.
* **C120** Model/HumText: the parameter loop of the reader, its choice of place, text and look, and the choice of the staff. The comment written by C48's model is split into pieces and run through the loop; the metronome search (C104) finds nothing in a text without a bracket, by induction over the text.
* **C121** Model/HumMeta: the writer's two loops with their index dictionary, the record lines, and the reader's collection, key pattern, table lookup and additions. Each written line is shown to be read as its item (key, number and language are split off again; the line parser is C10's), then a fold invariant gives the values of every name.
* **C122** Model/FixDur: the seven steps on lists of measures with voices of events, the reading of music21's durations of a rest being any function that adds up. Induction over the voice for the moves, over the part for the offsets; the longest measure of a place by a maximum. The first step is proved to raise for every score whose parts differ in length.
* **C123** Model/SpineGrid: lines with a kind, a name and the voices of each staff; bar lines, manipulators, clean-up (C37) and writing as list functions. Spec: a reader that follows the spines line by line. Induction over the lines, with the reading of one manipulator from C37.
* **C124** Model/FixBeams: voices of measures as lists of notes with beams; each note changed by looking at the next one of its voice. The changes along a part refine changes along the line of a voice; induction over the line.
* **C125** Model/NullTokens: the tokens of a voice along the lines; the loop with the time left. The loop is proved equal to filling the lines that start before the note ends, then induction over the lines.
* **C126** Model/MeiSlurs: attributes by id, slurs with local ids, the notes read in order. Elements and attributes are proved not to meet; invariants over the elements, over the notes, and over the starts and ends of a number.
* **C127** Model/SpineDurs: the spine as a tree read from its end, with the recursion at merges. The spec lists for each token all that follow it. Induction on the tree with the time of the next data token as the invariant.
* **C128** Model/MeiPedals: the loop with the open mark of each staff; attributes at notes as a list of writes. Projection to one staff, then induction over the uses of the pedal.
* **C129** Model/ChordText: replacements and loops on lists of characters, with fuel for the loop over the accidentals of the root. What comes back is computed for all figures without special words, which gives an exact condition.
* **C130** Model/NullHoles: the grid as nested lists, the search over later lines as a recursive function. The spec counts the time without the voice.
* **C131** Model/NoteTexts: attributes as a list of writes, read by the last one. For a note and a name the writes are those of the attached elements.
* **C132** Model/Arpeggios: attributes as a list of writes, read by the last one. The ids of an element are exactly the references, and writes for a note agree.
* **C133** Model/MeiEnds: attributes as a list of writes, read by the last one; notes are added to spanners in the order they are read.
* **C134** Model/MeiOrnaments: attributes as a list of writes, read by the last one. For a note with one element of a kind, each attribute read is the element's; then the branches that build the ornament.
* **C135** Model/OutputName: splitext on the reversed path. Splitting is shown to be the inverse of joining a named path and a plain extension; then cases.
* **C136** Model/MeiFermatas: a fold over the elements as seen from a note. Elements for other notes leave it unchanged; then the table of values.

## Where the code disagrees with a property

Each line is a theorem with a concrete input (or a general statement) for which the code as modelled does not do what the property says. The
property itself stays as listed; the theorem proved of it is then restricted and has the suffix `_partial`.

* C02 `getKeys_colon_form_broken`: the documented single-argument "NS1:NS2" form never finds anything that the two-argument form finds.
* C02 `getKeys_single_namespace_misses`: a value set in a single-level namespace given as `ns1` is listed neither under that `ns1` nor under the same pair of arguments.
* C04 `lineSetParameters_mangles`: un-escaping leaves the semicolon, and a value containing '=' is truncated.
* C04 `readString_colon_not_unescaped`: an escaped colon in a value is not turned back into a colon.
* C05 `recip_roundtrip_negative`: The restriction to non-negative durations is needed: a negative duration is not preserved.
* C06 `cache_ignores_scale`: the cache is keyed on the text only, so the scale of a later call is ignored.
* C08 `base40_empty_slot_wrong`: the empty slots of the base-40 system are not reported as errors; they become a B with a thousand sharps.
* C08 `base40_negative_wrong`: a pitch below octave 0 comes back as a different pitch.
* C100 `compound_meter_cut`: Of a time signature made of several fractions only the first is read back: its measures get the wrong length.
* C100 `no_clef_not_written`: "No clef" can be read but is never written; neither is a tablature clef.
* C101 `inverted_trill_turned_up`: A trill downwards is read as a trill upwards (placed below): on C4 with B, it comes back with D flat.
* C101 `inverted_turn_on_c_wrong`: An inverted turn on C4 between D and B in C major comes back as one between D flat and B flat.
* C101 `inverted_turn_swapped`: The two neighbouring notes of an inverted turn are read back with each other's interval: the note above gets the interval of the note below and the other way round, unless an accidental was shown.
* C101 `quadruple_sharp_dropped`: A displayed quadruple sharp is written but not known to the reader, which then drops the accidental.
* C101 `trill_in_line_lost`: A trill on a later note of a trill line is lost too.
* C101 `trill_line_lost`: No trill line ever comes back: whatever trill, mordents, turns and parts of trill lines a note has, its token starts no trill line.
* C101 `turn_beside_trill_unspecified`: On a note with a trill and a turn only the trill gets its second note; the turn's two notes are left to the key signature: here B flat - D flat around C in the text, none in the result.
* C101 `unpitched_mordent_becomes_trill`: A mordent on a note without pitch is read as a trill.
* C102 `dynamic_colon_cut`: a colon in the text ends the parameter.
* C102 `niente_lost`: a dynamic that is not one of the marks is not read back.
* C102 `simultaneous_dynamics`: `p` and `p` at one time become `pp`; `p` and `f` are lost.
* C102 `text_after_dynamic_gains_space`: the text is read back with one more space in front, and is then stable.
* C102 `two_dynamics_run_together`: the marks of two dynamics at one time in a part are run together in reading, and come back as one mark or none.
* C102 `wrong_word_replaced`: an earlier word with the same letters is replaced instead of the mark, and letters are lost.
* C103 `mark_in_crescendo`: A crescendo with a mark in the middle, as it is often written, becomes a word.
* C103 `mark_inside_hairpin_loses_it`: it comes back as a word, not as a hairpin.
* C103 `opposite_hairpins_one_lost`: of a crescendo and a diminuendo that start together in a part, only the crescendo is read.
* C103 `overlapping_hairpins_word`: overlapping hairpins on two staves of a part: the first becomes a word.
* C103 `start_before_stop_shrinks`: a crescendo that starts when another ends, on a later staff of the part, becomes a hairpin of its first note.
* C103 `two_crescendos_one_lost`: of two crescendos that start together, on two staves of a part, one is read.
* C104 `earlier_lines_dropped`: the lines of a tempo text before the line of the note are dropped, whatever they say.
* C104 `excerpt_words_lost`: the words at the start of an excerpt are not read if they stand before a bar line with a number above 1.
* C104 `fourth_dot_dropped`: a fourth dot is dropped.
* C104 `metronome_number_rounded`: a number that is not whole is not the number read.
* C104 `mid_measure_words_lost`: the words of a tempo mark inside a measure, written as an OMD record, are lost, unless they have a note in brackets: only the number is read.
* C104 `named_tempo_never_read`: the name in a token such as `*MM[Adagio]` is never read, and nothing comes of such a token: the expression for it can match no token that counts as a tempo.
* C104 `slow_tempo_lost`: a number below one half is written `*MM0`, and no mark is read from it.
* C104 `tempo_text_crash`: a bracket inside the brackets ends the import with an IndexError.
* C104 `text_number_rounded`: a number in the text that is not whole is rounded.
* C104 `two_notes_in_text`: of two notes in a text the number and the beat are those of the first, and the symbol in the text is put for the last; the first keeps its brackets.
* C104 `unknown_note_dropped`: the note of a name that is not on the list disappears from the text.
* C104 `wordless_lower_part_hides`: one tempo without words, in any part but the first, hides the words of the first part.
* C104 `wordless_tempo_hides_others`: a tempo without words, exported first, hides the words of every other tempo of its time.
* C105 `escaped_lyric_changed`: a lyric starting with `!` or `*` gets a backslash that is never taken away.
* C105 `high_number_loses_all`: one verse number above 100 loses all lyrics of the note.
* C105 `label_parenthesis_crash`: a label with an unmatched closing parenthesis, as in `1)`, makes import fail.
* C105 `label_points_swapped`: the label `d` gains a point, and the label `1` (for which the point is meant) does not.
* C105 `later_voice_loses_lyrics`: voices after the first with a note never have lyrics when read.
* C105 `later_voice_overwrites`: the lyrics of a later voice overwrite those of the same verses of the first, and erase the ones below its highest verse number.
* C105 `low_number_not_written`: a lyric numbered zero or less is not written.
* C105 `lyric_texts_changed`: a point is a null token; a hyphen at the end of a text becomes part of the syllabic; a second syllable starting with an apostrophe is joined to the first; blanks inside a syllable separate it.
* C105 `same_number_replaced`: of two lyrics with the same number only the last is kept.
* C106 `lower_voice_stretched`: **C106 (disagreement)** An octave line over the first of two half notes in a lower voice, under a whole note of the upper voice, is read as covering the whole measure.
* C106 `overlapping_ottava_lost`: **C106 (disagreement)** Of two overlapping octave lines of the same kind only the first is read.
* C106 `stop_in_gap_never_written`: **C106 (disagreement)** An octave line that ends where nothing of its staff starts (there is a gap) is read as covering everything to the end of the score, across the barline.
* C106 `three_octaves_read_as_one`: **C106 (disagreement)** Octave lines of three octaves (music21's `22da` and `22db`) are read as of one octave up.
* C107 `empty_first_number`: **C107 (disagreement)** When the first measure of a file has no data it is passed over, and the first that has gets its number.
* C107 `negative_number_positive`: **C107 (disagreement)** The sign of a negative number is lost.
* C107 `suffix_cut`: **C107 (disagreement)** Of a longer suffix only the first small letter is read; a suffix that starts with another character is lost.
* C107 `zero_length_measure_joined`: **C107 (disagreement)** A measure of length 0 (with grace notes only, say) has no barline: its lines are read as part of the measure before it.
* C108 `arpeggio_marks_add`: **C108 is false: marks add up.** A chord with a mark of its own within an arpeggio over its staff is taken as part of an arpeggio over several staves: neither of the two is read as it was.
* C108 `interrupted_arpeggio_cut`: **C108 is false: interrupted arpeggios are cut.** An arpeggio over the outer of three staves is read with its first note only.
* C108 `second_staff_arpeggio_lost`: **C108 is false: a second arpeggio of a staff is lost.** Of three voices, the second without arpeggio, the third loses its own.
* C108 `system_arpeggio_lost`: **C108 is false: arpeggios to the right of another are lost.** An arpeggio over two staves is not read when a note further left has an arpeggio of its own.
* C108 `voices_arpeggios_joined`: **C108 is false: two arpeggios become one.** Two voices of a staff, each with an arpeggio of its own, are read as one arpeggio over both.
* C109 `chromatic_bass_unreadable`: **C109 is false for basses that go below the root by an accidental only.** C over C flat is written as a bass on the eighth degree, which the reader cannot make an interval of.
* C109 `flat_bass_unreadable`: **C109 is false for doubly flattened basses.** The diminished seventh above the root (or any second, third, sixth or seventh flattened twice or more) asks music21 for an interval without a quality when it is read.
* C109 `omit_and_alter_fails`: **C109 is false for chords with an omitted and an altered degree.** The altered degree is looked for at its place before the other one was left out: the export fails.
* C109 `omitted_flat_degree_lost`: **C109 is false for omitted flat degrees.** What is left out is written as the natural degree, and the reader looks for just that: a minor seventh chord without its third, or without its seventh, comes back whole.
* C109 `root_modification_lost`: **C109 is false for modifications of the root**: an omitted root and an added sharp root are both ignored.
* C109 `unknown_kind_lost`: **C109 is false for kinds without a Harte text**: nothing is left but the text given for that case.
* C11 `line_leading_tab_lost`: C11, the part that is false.
* C110 `let_ring_lost`: a `let-ring` tie is lost.
* C110 `matched_tie_style_lost`: any tie between two notes loses its style and its placement.
* C110 `tie_styles_move_back`: in a chain of tied notes each tie comes back with the style and placement of the next note's tie, the last one with none.
* C111 `crossing_slurs_repaired`: they change their last notes.
* C111 `double_slurs_get_places`: one comes back below, the other above.
* C111 `one_note_slur_takes_an_end`: it takes the end of another slur.
* C111 `shorter_slur_first`: the slurs exchange their placements.
* C112 `fill_hides_notehead`: A filled or emptied note loses its shape, whatever it is.
* C112 `other_noteheads_lost`: Any shape other than diamond and cross is lost.
* C112 `stemless_grace_loses_type`: A grace note without stem loses its note type: an eighth and a sixteenth are written alike.
* C112 `stemless_note_gets_a_stem`: A note that is not a grace note is written in the same way without stem and with a stem whose direction is not known.
* C113 `abbreviation_becomes_name`: A part that has only an abbreviation gets it as its name.
* C113 `bare_clef_crashes`: A clef token without a clef stops the import.
* C113 `dummy_names_lost`: Names with certain words in them are not written.
* C113 `instrument_key_never_named`: The key of an instrument is never added to its name, whatever a file has at the start of a staff: the transposition is compared with a whole token, but it is kept without the beginning.
* C113 `lone_staff_loses_abbreviation`: If there is only one staff its abbreviation is not read.
* C113 `quoted_name_lost`: A name with a quote at the start is not read as a name.
* C113 `transposing_part_loses_name`: A transposing instrument on two staves loses its name: the upper staff is given one of its own, which comes first.
* C114 `escaped_text_not_restored`: the text of a mark is escaped when written and not when read: no text with a colon or a line break comes back.
* C114 `glyph_mark_crashes`: a text that ends in a note glyph cannot be exported at all (an IndexError).
* C114 `missing_staff_crashes`: a line that places the mark on a staff the score does not have stops the import (an IndexError).
* C114 `other_enclosures_lost`: other enclosures (rectangles, brackets, pentagons, …) are lost, and ovals become circles.
* C114 `pickup_mark_not_found`: in a measure that begins with notes, without a barline, the reader looks at the line the measure starts with, which is no barline, so a mark there is never read.
* C115 `blank_mxhm_crashes`: A `**mxhm` token of nothing but blanks stops the import.
* C115 `end_symbol_drops_rest`: A symbol at the very end of a measure cannot be written, and every symbol after it in the list, at whatever place and in whatever part, is lost with it.
* C115 `harmony_text_cut`: Texts are not escaped: a colon cuts a text short.
* C115 `kind_text_lost`: Where a symbol has both texts, the text of the kind is written but not read.
* C115 `kindless_mxhm_lost`: A chord without a kind is written as its root alone, which is read as nothing; with another bass, root and bass together are taken for the root.
* C115 `symbol_before_staves`: A symbol with no staff to its left is kept, with track 0, for which the reader knows no staff: its table has -1 there, which Python takes for the last, that is the bottom, staff.
* C115 `unnamed_chord_shifts_texts`: A chord that has no text in Harte's notation is written as `.`, counted by the writer and not by the reader, so that the next symbol at its place gets its texts.
* C116 `bad_note_number_raises`: A note number that is no number stops the import.
* C116 `number_leaks`: The number of one comment stays in force for later comments without a number: a parameter for all notes is found for the numbered note only.
* C116 `rest_dropped_from_chord`: A subtoken with a rest sign is dropped from the chord.
* C116 `second_comment_unread`: Of two comments for the same note only the first counts, even if it does not have the parameter.
* C116 `single_note_chord_cut`: A chord of one note loses its beams and the ends of its slurs.
* C116 `visual_duration_halved_per_note`: The visual duration is halved once for every note under a two-beam tremolo, not once for the chord.
* C117 `key_name_lost`: if the last key signature of the moment is no key, the keys of all other staves are read as mere key signatures.
* C117 `metersymbol_lost`: the symbol of a time signature is lost if the last time signature of the moment has none.
* C118 `dynamic_doubled`: Two **dynam spines for one staff: the dynamic of the first is read again from an empty token of the second.
* C118 `grace_takes_other_dynamics`: A grace note takes the dynamics of the staves above.
* C118 `interpretation_overrides`: after `*above` a dynamic is above, even one that says it is below.
* C118 `middle_dynamic_moves`: a dynamic in the middle under a lower staff moves to the top staff, although it was written with its staff: the parameter is looked for at the note instead of the **dynam token.
* C118 `middle_hairpin_lost`: a hairpin in the middle under the top staff of its part is written like one without a place.
* C118 `unplaced_dynamic_moves`: a dynamic on a lower staff of its part that says nothing about its place moves to the top staff.
* C119 `color_from_other_spine`: The first note gets the color `4d`, the text of the second note.
* C119 `first_null_takes_other`: a null token before the first other token of its strand stands for the last one of the strands before.
* C119 `null_of_second_voice`: The null token at the beginning of a second voice stands for a note after the end of that voice.
* C12 `read_edits_bare_rhythm`: A rhythm without a pitch becomes an invisible rest in the text that is kept.
* C12 `read_edits_mixed_line`: When syntax errors are accepted, a `*` on a data line is turned into a null token.
* C12 `read_empty_fails`: Reading the empty text fails.
* C12 `read_stops_at_eos`: Reading stops at a line `<eos>`; the rest of the text is dropped without a message.
* C120 `beat_text_becomes_tempo`: a text direction that says what the beat is, or that stands before a time signature, becomes a metronome mark.
* C120 `empty_text_lost`: an empty text is lost.
* C120 `system_text_repeated`: a text for the whole system in the middle is shown on every staff.
* C120 `text_changes`: A text about the beat and one with a bold weight, which becomes a bold style.
* C120 `unplaced_text_above`: a text without a place comes back above.
* C121 `language_stops_export`: A text with a language under a name Humdrum has no key for stops the export.
* C121 `language_stops_export_example`: For example an abstract in English.
* C121 `metadata_changes`: What does not come back: a language with a region, further names of a contributor, a contributor's unknown role, the language of a contributor's name, a text like an escape.
* C121 `same_title_lost`: A title that is the movement's name too is lost.
* C122 `ragged_score_fails`: A score whose parts do not have the same number of measures cannot be exported: where an empty measure was meant to be added, an IndexError is raised.
* C122 `ragged_score_fails_example`: Two parts with one and two measures.
* C122 `together_becomes_apart`: Notes that start together in one voice are played one after the other, and the measure gets longer.
* C123 `empty_last_measure_breaks`: When the last measure has no lines, spines are merged after every measure, even if the next measure goes on with two voices.
* C123 `empty_measure_breaks`: The full claim without the conditions on measures is false: when a measure without lines stands between two of two voices, the spine is split a second time, and the next line does not fit.
* C123 `global_last_line_breaks`: When the last line of the score is global, such as a line break at its end, the last bar line has a token for one staff only.
* C123 `global_line_gets_tokens`: a global line between lines of two voices, such as the line break `!!LO:LB` at the start of a measure, is written with a second token `!!`.
* C123 `zero_first_measure_breaks`: When a first measure of length 0 starts with two voices, the spines are split in the last measure instead of the first.
* C124 `ended_voice_leaves_beam`: A beam that goes on in the last note of a voice is left as it is if the part has further measures without this voice.
* C124 `rest_measure_leaves_beam`: A beam that goes on at the end of a measure is left as it is if the voice has only rests in the next one.
* C124 `two_stops_left`: One repair is not enough: a beam that stops, goes on and has no note after it then stops twice.
* C125 `own_time_breaks`: The claim is false for grids in which an interpretation has a time of its own: a half note is then taken to last longer, and writing the next note fails although no notes overlap.
* C126 `slur_turned_round`: The start and the end are not told apart: a slur whose end is read before its start (in a staff above, or in an earlier layer) begins with its end.
* C126 `staves_share_numbers`: Numbers in attributes are not kept apart by staff: with slurs of number 1 in two staves, the shorter one (notes 1 and 2 of the lower staff) and the longer one (notes 0 and 3 of the upper staff) get each other's ends.
* C127 `data_after_merge_breaks`: Two spines merge before a line of data at time 2: the token at time 1 of the second spine is taken to last until the end at time 4, beyond the token at time 2; the one of the first spine lasts until time 2.
* C127 `second_split_breaks`: A second spine that is split and merged again keeps tokens without a duration: the code stops at the other name.
* C128 `missing_up_breaks`: A down whose up is missing: the next down is taken as the end of its mark, the up after that begins a mark, and so on.
* C128 `same_note_breaks`: Two staves with a pedal down at the same note: the note is only put into the mark of the second.
* C129 `chord_text_changes`: A flat bass and a flat degree come back in another spelling; a diminished chord comes back as a sign.
* C129 `reading_hangs`: Reading never ends for a text that begins with an accidental: no number of passes is enough.
* C13 `class_leading_tab`: an interpretation line with a leading tab is reported as data.
* C13 `class_only_tabs`: on a line of tabs only, the class tests raise IndexError.
* C130 `last_staff_breaks`: A hole in the last part, or in the last staff of its part, lasts only as long as its own slice, however long the voice is missing.
* C130 `last_voice_breaks`: A hole in the last voice of another staff is taken to last until the end of the piece, although the voice is there in the next slices: the rest of the first slice lasts 3, and not 1.
* C131 `second_dir_breaks`: Of two directions at a note only the second is found, and it takes over the placement of the first.
* C131 `tempo_is_dynamic`: A tempo that is attached to a note becomes a dynamic with its text, in place of the dynamic of the note.
* C131 `tempo_never_found`: No note ever gets a tempo, in any file.
* C132 `arpeggio_of_one_breaks`: A note named once with and once without `#` is taken for two notes: it gets no mark of its own.
* C132 `two_arpeggios_break`: A note in two arpeggios is only put into the second.
* C133 `other_staff_turns`: When the end note is read before the start note, as with notes of different staves, the order is turned round.
* C133 `shared_end_breaks`: Two hairpins that end at the same note: the first loses its end note.
* C133 `shared_start_breaks`: Two hairpins that start at the same note, in two staves or above and below: the first loses its start note.
* C134 `mordent_form_breaks`: Every mordent of another form makes the reader fail, whatever else it says.
* C134 `second_mordent_breaks`: Of two mordents at one note there is only one, and it has the accidental and form of the other.
* C135 `dot_name_breaks`: A name that is only an extension is not taken for one: another is added.
* C135 `output_names_collide`: Different names give the same file, so that one output replaces the other.
* C136 `second_fermata_breaks`: Of two fermatas at a note, above and below, there is only one, with the form and shape of the other.
* C14 `reference_accepts_prose`: a comment whose text before the colon holds blanks counts as a reference record (the test splits the wrong string).
* C14 `reference_universal_value_wrong`: the value of a universal record is reported to be its key.
* C15 `merge_tracks_file_crashes`: A file that merges three spines crashes the reader.
* C15 `stray_merge_accepted`: a stray `*v` at the end of a line is accepted, its spine vanishing; two spines added on one line are rejected.
* C15 `two_added_rejected`: Two spines added on one line are rejected.
* C16 `merge_three_tracks_crashes`: Merging three unsplit spines crashes the reader.
* C16 `merge_two_tracks_loses_track`: merging two different unsplit spines with one-digit numbers yields the empty description, whose track is 0; three such spines crash the reader; two split ones give a crash too.
* C16 `merge_wrong_track`: Merging three spines with two-digit numbers keeps the last one.
* C19 `times_can_decrease`: notes whose spines do not agree on the order of their lines are accepted, and the start times decrease; the durations are then clamped and no longer telescope.
* C23 `appendLine_not_numbered`: C23, false parts.
* C23 `insertLine_past_end_not_numbered`: So does a line inserted past the end of the file.
* C24 `rest_goes_stale`: the cached answer survives a change of the token it stands for.
* C25 `subtoken_space_stale`: Replacing by a text with a space leaves a wrong list of subtokens behind.
* C26 `linked_end_missed`: A linked slur end is recognised only at the very beginning of its token.
* C26 `second_ending_missed`: An unmatched slur end in a second ending should be recognised as coming from before the first one: the label before it starts ending 2, and the line before that label is in ending 1. It is not, because the label looked up is the last of the file.
* C26 `slur_deep_elision_fails`: Five elision levels, or nine layers, are an internal error.
* C26 `slur_end_never_found`: the end of a slur can never be read from its start, whatever was linked, nor either end of a phrase: the readers use other keys than the analysis.
* C26 `slur_number_wrong`: The start number is wrong when the slurs of a note have different elision levels: here the first mark `(` is linked first, and recorded as mark number 2.
* C26 `slur_other_layer`: A layer that closes more than it opens takes the open mark of another layer.
* C27 `phrase_needs_slurs`: A phrase is found only where the tokens happen to have slurs.
* C27 `phrase_without_slurs_ignored`: phrase marks are counted by their parentheses, so in a file without slurs every phrase is ignored.
* C28 `tie_high_pitch_fails`: A pitch from C10 up, or a marked subtoken with no pitch, makes the analysis fail.
* C28 `tie_low_pitch_wrong`: A pitch below C0 shares its place with one near the top: notes of different pitch are tied.
* C28 `tie_two_marks_wrong`: A note with both a start and an end mark is tied to itself, and the tie that should end there is lost.
* C29 `acc_chord_with_rest_skipped`: A chord in which one note is marked as not sounding (`r`) is taken for a rest: none of its accidentals is recorded.
* C29 `acc_hidden_wrong`: False after a hidden note: the sharp goes to the note nobody sees.
* C29 `acc_range_wrong`: A note below C0 never gets an accidental; one above B9 makes the analysis fail.
* C29 `acc_turn_wrong`: False with a turn: the f sharp of the turn makes the analysis drop the sharp of the next note.
* C30 `rest_roundtrip_wrong`: A rest moved to a space does not come back: the statement without `he` is false.
* C31 `color_leaks`: a color given in track 1 only is the color of track 2.
* C31 `color_tracks_equal`: all tracks always have the same colors.
* C33 `rdf_ten_colors_fail`: A score with ten colors of notes cannot be exported.
* C34 `addData_after_later_clef`: `addDataToken` (which nothing calls) looks at data lines only and so puts an early note after a later clef.
* C34 `bounce_at_measure_end_reversed`: a pedal bounce (up, then down), handed over in reverse because lines before a line come out reversed, comes out in the wrong order at the end of a measure.
* C34 `end_after_global_crashes`: a comment for the end of a measure that ends with a global line fails, because the new line is made like the last one.
* C34 `layout_of_first_line_misplaced`: a layout comment for the first line of a measure lands at the end of the measure if there is a layout line there.
* C35 `negative_voice_overwrites`: it is not an error but overwrites the last voice.
* C35 `skipped_layer_crashes`: a place filled with `None` by `setTokenLayer` for a higher layer cannot take a token later.
* C36 `harmony_beyond_flags`: the flags are kept for 100 parts only, and the harmony of a later part makes its line longer than the others.
* C37 `four_staves_merge_broken`: when two parts of two staves each go from two voices to one, the lower part's four `*v` stand side by side and the reader rejects the line.
* C37 `split_below_merge_broken`: a staff that gains a voice below two neighbouring staves that lose one has too few tokens on the second line.
* C40 `crossing_loses_note`: with a total of 5 and a crossing at 4 1/3, whatever honest tuplet is found, the first list is 4 too short.
* C42 `xmlid_string_collides`: those are used as they are.
* C43 `date_infinite_second_crashes`: A second field "inf" raises an OverflowError out of the function, which handles only ValueError.
* C43 `date_midnight_lost`: an hour 0 is not written, and comes back as no hour.
* C43 `prim_and_lost`: "all of these dates" is read back as "one of these dates".
* C43 `prim_on_or_before_lost`: 'on or before' comes back as 'before', and 'and' as 'or'.
* C44 `edtf_inclusive_lost`: C44 fails for "on or before" and "on or after", which are written like "before" and "after".
* C44 `edtf_mark_moves`: it is read as qualifying the whole date.
* C44 `edtf_qualifier_lost`: that the date is uncertain or approximate is never written.
* C44 `iso_time_lost`: the hour is joined to the day by '-', and the time is not read.
* C45 `spaced_digit_wrong`: A number after a space comes back without the space.
* C46 `negative_number_invisible`: A negative measure number makes the barline invisible.
* C46 `repeat_style_lost`: The converter of one barline text keeps the style of a repeat; it is the second pass over the measure that loses it.
* C47 `combine_fails`: The full statement of C47 is false: a start of a repeat after a dotted barline cannot be exported.
* C48 `textLayout_color_unsafe`: The hypothesis on colors is needed: a color is exported without cleaning.
* C48 `text_roundtrip_fails_on_entities`: The exclusion of '&' is needed: a text that already looks escaped is changed by the trip.
* C49 `translateSMUFL_not_total`: a text consisting of a quarter-note glyph makes the exporter raise.
* C50 `big_signature_lost`: the signature is written but read as nothing.
* C50 `huge_signature_fails`: Beyond fourteen the export fails.
* C50 `nonstandard_always_lost`: A signature that is not standard is never read: with no key designation nothing is made of it.
* C50 `nonstandard_lost`: C50 fails for `*k[f#b-]`, which has two altered pitches.
* C51 `finger_tremolo_lines_past_end`: A tremolo of two notes at the end of the file adds lines after its end, the last with a negative duration.
* C51 `one_note_tremolo_overwrites`: an eighth note marked as a tremolo of one eighth note makes the next note of the spine the same note.
* C51 `tremolo_slur_repeated`: A slur that starts on a tremolo starts on each of its notes.
* C51 `tremolo_zero_crashes`: A tremolo of value zero stops the program.
* C52 `export_tuplet_wrong`: a dotted note in a tuplet whose undotted value is a power of two is always exported with another duration.
* C52 `export_visual_two_dots_wrong`: The visual length of a note in a tuplet with two dots is exported as three times its type, not 7/4 of it.
* C53 `equal_groups_lost`: Three groups of the same staves beside a larger group: none of the three is written.
* C53 `overlap_listed_twice`: Groups that overlap: staff 2 is listed twice.
* C54 `rscale_dots_wrong`: A scale that gives dots to a note that has dots is shown wrong: a dotted quarter scaled by 3/2 lasts 9/4, and is shown as a quarter with two dots, 7/4.
* C55 `mens_mark_after_shape_ignored`: a perfection mark after the note shape has no effect.
* C57 `repetition_nested`: Repeated text with two opening marks has two beginnings and one end.
* C57 `repetition_unclosed`: Repeated text that is not closed has a beginning and no end: the original claim is false of it.
* C59 `track_end_misplaced`: with two spines ended on one line, the first track has no end and the second has both (`trackEndCount(1)` is 0, `trackEnd(2, 0)` is the terminator of track 1).
* C60 `merge_unchecked`: sub-spines of different length are merged without complaint, and the time after the merge is that of the first.
* C60 `unequal_ends_accepted`: Spines of different length that do not merge are found only if notes meet on a line; at the end of the file the later end wins.
* C62 `floating_at_zero_rejected`: A spine added before the first note is rejected, although its start is known: the code takes time 0 for "not found".
* C63 `rdf_color_word_wrong`: The records of a color that is one of the words are misread: here the notes lose their color and linked notes are changed.
* C66 `ending_zero_crashes`: A bracket named 0 is written, but the file cannot be read.
* C66 `endings_same_number_merge`: Neighbouring brackets with the same number become one: the full statement of C66 is false.
* C68 `empty_group_crashes`: A group whose staves are not in the score, inside three brackets: the import fails.
* C68 `ungrouped_staff_loses_groups`: A staff outside every group: the exported decoration is not used at all, and the groups are lost.
* C69 `global_first_line_broken`: the header lines have the spines of one staff only.
* C70 `empty_staff_breaks_order`: a staff without events makes the exporter forget the earliest time: here the event at 0 is handled after one at 2, and the two simultaneous events at 2 are handled one by one, so that they end up on two lines.
* C71 `gap_of_two_rests_wrong`: a gap that needs two rests (here of two and a half quarters) gets both at the same time, so that the second one takes the place of the first in the voice and the rhythm of the exported voice is wrong.
* C73 `hiding_leaks_to_next_measure`: And a measure in which voices take turns leaves the importer in another state than the exporter: the tuplet of the next measure loses its number.
* C73 `second_voice_hides_too_late`: two tuplets without number in one measure, and the later one, in the first voice, comes back with its number.
* C74 `adjacent_pedals_merge`: they come back as one mark with a bounce.
* C75 `object_misplaced`: in a measure of five quarters an object at 4 1/3 gets a line at 1/3.
* C76 `findFirstWithAttributeValue_other_attribute`: the search for `xml:id` `a1` stops at an element whose `startid` is `a1`.
* C77 `editorial_text_doubled`: "<add>molto <rend>vivace</rend></add>" is read as "vivacemolto vivace".
* C77 `text_after_choice_ignored`: it has no influence on the text.
* C77 `text_after_choice_lost`: "Allegro <choice><sic>con birio</sic><corr>con brio</corr></choice> assai" loses "assai".
* C78 `tstamp_not_read_back`: in 12/4, 1/24 of a quarter note after beat 10 is written 10.0417, which is read as 10 + 32/767.
* C79 `double_barline_at_repeat_lost`: a double bar line where a repeat starts becomes a regular one.
* C79 `heavy_barline_lost`: a heavy bar line is written as `heavy` and read as a regular one.
* C79 `invisible_repeat_lost`: a repeat that starts at an invisible bar line is lost.
* C79 `tick_barline_fails`: the export of a tick, short or heavy-heavy bar line raises KeyError.
* C80 `complex_length_lost`: a half note performed for two and a half quarters (which music21 calls complex) is performed for two.
* C80 `duplex_maxima_lost`: a duplex maxima has no `dur` and is read as the default duration.
* C80 `tuplet_length_lost`: a quarter performed for a third of a quarter (an eighth in a triplet for music21) is performed for a half.
* C81 `hidden_triple_sharp_lost`: a triple sharp that is not displayed is not written at all.
* C81 `quadruple_sharp_lost`: a displayed quadruple sharp is written as an empty accidental and lost.
* C82 `dotted_ftrem_wrong`: a tremolo of two dotted eighths with two marks is read back with three: the reader looks up the dotted length.
* C82 `eighth_btrem_wrong`: an eighth note with two tremolo marks is read back with three: the reader does not take away the note's flags.
* C83 `clef_octave_lost`: the octave of a percussion clef, and of a clef four octaves up, is lost.
* C83 `cut_four_four_lost`: a cut sign on 4/4 is lost.
* C83 `ten_sharps_read_as_one`: ten sharps are read as one.
* C83 `thirteen_sharps_lost`: thirteen sharps are read as none.
* C84 `high_note_fails`: a note in octave ten raises IndexError.
* C84 `low_note_wrong`: a note below C0 changes a note in the highest octave: after C sharp -1, C9 counts as sharp.
* C85 `beamed_tremolo_unreadable`: when a tremolo between two notes is also a beam of its own, the tremolo is written around the beam, and the reader refuses the tremolo (it finds no note in it).
* C85 `grace_nesting_wrong`: a beam that ends with a grace note takes as long as the triplet inside it, so the triplet is opened first and closed while the beam is open.
* C86 `change_in_note_lost`: a change in the middle of the notes of all voices is not written at all.
* C86 `clef_in_note_shifts`: a clef in the middle of a half note moves the next note a beat later.
* C86 `sameas_clef_read_as_treble`: the stub that stands for a bass clef in the second layer is read as a treble clef there.
* C87 `layer_numbers_clash`: a voice without an id takes the number 1 that the next voice was given.
* C88 `break_between_endings_lost`: a system break between two endings is lost when all measures before are in endings.
* C88 `crossing_endings_wrong`: crossing brackets are exchanged for nested ones.
* C88 `overlapping_endings_fail`: two brackets that start in the same measure make the export fail.
* C88 `trailing_measures_lost`: the last measures of a part are dropped when another part has fewer.
* C89 `set_order_moves_staff`: a group of staves 7 to 10 with an inner group of 8 and 9. The staves of the group are visited in the order 8, 9, 10, 7, so staff 7 is defined after the inner group.
* C89 `staff_never_defined`: with a group of staves 1 and 3, staff 2 has no staffDef.
* C90 `empty_staffGrp_fails`: a staffGrp without staves in another one makes the import fail.
* C90 `group_moves_to_other_staves`: a brace over staves 1 and 2 with staff 3 below it (in a common staffGrp) is read as a brace over staves 2 and 3, and the names of the three parts are exchanged.
* C90 `piano_brace_moves`: a piano (staves 1 and 2, with a brace) above a voice comes back with the brace over staves 2 and 3.
* C91 `hidden_tie_lost`: hidden ties are not written.
* C91 `open_tie_closed`: a tie whose other end is not marked, or is missing, is joined to any later note of its pitch in the next measure.
* C91 `tie_start_lost`: the elements are written correctly, but the second tie that ends at a note makes the reader forget that a tie starts there.
* C91 `tie_to_wrong_note`: the voices are searched one after the other, so the tie goes to the later note of the first voice, whatever the notes say.
* C92 `beamSpan_lost`: So a beam over a bar line is lost.
* C92 `beamSpan_not_read`: A `beamSpan` with startid (as all that are written have) is not read.
* C92 `broken_first_note`: A break after the first note: the second beam starts twice.
* C92 `inner_beam_never_starts`: An eighth and two sixteenths: the second beam continues and stops, but it never starts.
* C92 `uneven_break_lost`: A break between notes with different numbers of beams is not written.
* C93 `bare_tuplets_not_read`: Tuplets that are given by the attribute `tuplet` alone are never read, for every layer in which each end has a start before it: no note changes, so durations are too long.
* C93 `nested_tuplets_exchanged`: When a tuplet in a tuplet has been read and is written again, their notes are exchanged.
* C93 `tupletSpan_look_leaks`: The look of a `tupletSpan` goes over to the next one that does not say.
* C93 `tuplet_broken_by_voice`: A tuplet over a bar line is broken by a note of another voice.
* C93 `tuplet_without_notes_lost`: A `tuplet` element with only grace notes or clefs in it: they are lost.
* C93 `untyped_tuplets_joined`: Two tuplets one after the other with no types are written as one.
* C94 `end_after_last_measure_lost`: an end that skips more measures than there are is lost.
* C94 `end_after_new_meter`: The same for a hairpin that ends in the middle of the measure in 6/8: 1m+4.0 is read as the fourth quarter note.
* C94 `end_in_gap`: no measure is found, and the end is written as after the last measure, where it is lost (`end_after_last_measure_lost`); the message says it is put at the start measure.
* C94 `end_on_barline_of_new_meter`: a hairpin over the first measure, 4/4, before a measure in 6/8 ends at the barline. Its end is counted in eighth notes, 0m+9.0, and read in quarter notes: 8 quarter notes after the beginning of the measure.
* C94 `skip_without_beat`: a tstamp2 with no beat is read as a beat in the same measure.
* C95 `beam_over_barline`: A beam that goes over the barline takes all beams of the layer in both measures away.
* C95 `beam_without_durations`: A beam over notes without durations spoils the beams that come after it: both notes of the second beam start a beam.
* C95 `break_before_rest_lost`: A break with a rest after it is lost.
* C95 `first_break_lost`: A break after the first note of a group is lost: the first note should have a hook.
* C95 `hum_uneven_break_lost`: A break between notes with different numbers of beams is lost (the third beam goes on as it would without the break).
* C95 `inner_hook_to_the_right`: A hook inside a group is always read as one to the right.
* C95 `one_note_chord_loses_beams`: A chord of one note loses its beams and the ends of its slurs.
* C96 `long_triplet_number`: A triplet of longs (each two thirds of a long) is read as three in the time of eight.
* C96 `one_note_tuplet_goes_on`: A tuplet of one note never ends: the plain notes after it become part of it.
* C96 `second_ratio_change_missed`: After one change of the ratio, the next one is missed: the septuplet notes (1/7) get the numbers of a quintuplet.
* C96 `tupbreak_in_beam_ignored`: A *tupbreak within a beam that has a plain duration does nothing.
* C96 `unbeamed_sextuplet_split`: A sextuplet without a beam becomes two triplets.
* C97 `accent_takes_placement`: An accent followed by a strong accent below the note: the text `^^^<` gives the placement to the accent instead.
* C97 `articulation_order_lost`: The order of the articulations on the note is not kept.
* C97 `doubled_articulation_changes`: Two accents become one strong accent, two staccatos one staccatissimo.
* C97 `fermata_turned_over`: Every fermata of a visible note comes back the other way up: the exporter writes the `<` of a fermata below the note for the upright ones.
* C97 `hidden_note_loses_fermata`: A hidden note loses its fermatas.
* C97 `two_fermatas_become_one`: Of an upright and an inverted fermata on one note, one is lost.
* C97 `unknown_articulation_moves_previous`: An articulation without a **kern sign (a fingering, say) with a placement moves the articulation written before it.
* C98 `earlier_signature_lost`: Of two changes in one measure the first is lost.
* C98 `first_staff_keeps_old_key`: Only the second staff remembers its new key: ornaments of the first are resolved in the old one.
* C98 `key_change_not_remembered`: The new keys of a measure are remembered by no other staff than the one whose token is the last of the measure's interpretation tokens: every other staff keeps its old key, whatever its key signature.
* C98 `lone_key_name_lost`: A key name without a key signature in the same measure is lost.
* C98 `symbol_before_signature_lost`: A mensuration symbol is only used after a time signature in the same measure.
* C98 `wrong_staff_remembers_key`: When the measure's last interpretation is in a spine that is no staff (here one of dynamics), the key of the first staff is remembered by the last staff.
* C99 `microtone_becomes_natural`: A quarter tone sharp becomes a natural with its sign.
* C99 `note_below_octave_zero_lost`: Every note below octave 0 is dropped by the importer, although the exporter writes it.
