{
 "claims": [
  {
   "property": "C01",
   "status": "proved",
   "theorems": [
    "C21.HumHash.getValue_is_last_write",
    "C21.HumHash.isDefined_is_last_write",
    "C21.HumHash.other_address_unaffected",
    "C21.HumHash.getValue_bad_args",
    "C21.HumHash.docAddr_isSome",
    "C21.HumHash.valueBool_false_iff"
   ],
   "note": "Refinement of the nested dictionaries to a last-write-wins map, over every history of writes and deletes."
  },
  {
   "property": "C02",
   "status": "partial",
   "theorems": [
    "C21.HumHash.colon3_same",
    "C21.HumHash.colon2_same",
    "C21.HumHash.forms_interchangeable",
    "C21.HumHash.docAddr_plain",
    "C21.HumHash.count_eq_keys",
    "C21.HumHash.getKeys_two_partial",
    "C21.HumHash.getKeys_colon_form_broken",
    "C21.HumHash.getKeys_single_namespace_misses"
   ],
   "note": "Address forms proved interchangeable for values; key listing is false for the colon form and single-namespace form, negations proved."
  },
  {
   "property": "C03",
   "status": "proved",
   "theorems": [
    "C21.HumHash.getOrigin_is_last_write",
    "C21.HumHash.setOrigin_absent",
    "C21.HumHash.origin_history"
   ],
   "note": ""
  },
  {
   "property": "C04",
   "status": "partial",
   "theorems": [
    "C21.readString_roundtrip_partial",
    "C21.readString_colon_not_unescaped",
    "C21.lineSetParameters_mangles",
    "C21.lineSetParameters_roundtrip_partial",
    "C21.setParameter_spec"
   ],
   "note": "Round trip proved for values without a colon entity; the false part is proved false."
  },
  {
   "property": "C05",
   "status": "proved",
   "theorems": [
    "C21.recip_roundtrip",
    "C21.durationToRecip_injective",
    "C21.recip_roundtrip_negative"
   ],
   "note": "All non-negative rational durations; negative ones shown not preserved."
  },
  {
   "property": "C06",
   "status": "partial",
   "theorems": [
    "C21.cache_invisible_partial",
    "C21.scale_multiplies",
    "C21.cache_ignores_scale"
   ],
   "note": "Proved for histories with one scale (all callers in the repo); false when scales are mixed, negation proved."
  },
  {
   "property": "C07",
   "status": "proved",
   "theorems": [
    "C21.dotted_duration",
    "C21.noDots_duration",
    "C21.tokenNoDots_spec",
    "C21.tokenDotCount_eq"
   ],
   "note": ""
  },
  {
   "property": "C08",
   "status": "partial",
   "theorems": [
    "C21.kern_base40",
    "C21.base40_injective",
    "C21.base40_roundtrip_partial",
    "C21.kern_base40_kern_partial",
    "C21.base40_high_octave",
    "C21.base40_negative_wrong",
    "C21.base40_empty_slot_wrong"
   ],
   "note": "Proved for octaves 0..16 and at most two accidentals; negative numbers and unused slots proved wrong."
  },
  {
   "property": "C09",
   "status": "proved",
   "theorems": [
    "C21.kern_readings",
    "C21.kern_base7",
    "C21.kern_midi",
    "C21.kern_base12",
    "C21.kern_rest",
    "C21.base7_roundtrip"
   ],
   "note": ""
  },
  {
   "property": "C10",
   "status": "proved",
   "theorems": [
    "C21.trans_roundtrip"
   ],
   "note": ""
  },
  {
   "property": "C100",
   "status": "partial",
   "theorems": [
    "C21.kern_clef_round_trip_partial",
    "C21.percussion_clef_round_trip",
    "C21.no_clef_not_written",
    "C21.time_signature_round_trip_partial",
    "C21.compound_meter_cut",
    "C21.zero_denominators",
    "C21.meter_symbol_round_trip"
   ],
   "note": "Proved for all G, F, C and percussion clefs, all one-fraction time signatures, all symbols. False: a time signature made of several fractions is read back as its first fraction (proved for all of them), and NoClef can be read but is never written. What music21 builds from the description is not modelled."
  },
  {
   "property": "C101",
   "status": "partial",
   "theorems": [
    "C21.ornament_kinds_partial",
    "C21.trill_pitch_round_trip_partial",
    "C21.mordent_pitch_round_trip_partial",
    "C21.turn_pitch_round_trip_partial",
    "C21.inverted_turn_swapped",
    "C21.inverted_turn_on_c_wrong",
    "C21.trill_line_lost",
    "C21.trill_in_line_lost",
    "C21.unpitched_mordent_becomes_trill",
    "C21.inverted_trill_turned_up",
    "C21.turn_beside_trill_unspecified",
    "C21.quadruple_sharp_dropped",
    "C21.mordent_marks"
   ],
   "note": "Kinds proved for all sets of at most one trill upwards, mordent and turn; neighbouring notes for a single ornament. Proved false for all inputs: inverted turns come back with the two intervals exchanged, trill lines never come back, a trill on a later note of a trill line is lost, mordents on unpitched notes come back as trills. Witnesses: trills downwards are turned up, a turn beside a trill loses its notes, quadruple sharps. Placement is not written. Chords and the analysis of tied notes (C29) are not covered."
  },
  {
   "property": "C102",
   "status": "partial",
   "theorems": [
    "C21.plain_dynamic_round_trip",
    "C21.bracketed_dynamic_round_trip",
    "C21.text_before_dynamic_round_trip_partial",
    "C21.text_after_dynamic_gains_space",
    "C21.two_dynamics_run_together",
    "C21.wrong_word_replaced",
    "C21.dynamic_colon_cut",
    "C21.niente_lost",
    "C21.simultaneous_dynamics",
    "C21.other_layout_not_read"
   ],
   "note": "Plain and bracketed marks: all of them. Words before the mark: when no earlier word is or begins with the mark and there is no colon or percent sign. Proved false for all inputs: words after the mark gain a space (once), two dynamics at one time come back as one mark or none. Witnesses: an earlier word that begins with the mark is cut, a colon ends the text, other dynamics are lost. Placement, justification and colours are not covered."
  },
  {
   "property": "C103",
   "status": "partial",
   "theorems": [
    "C21.hairpins_round_trip_partial",
    "C21.mark_inside_hairpin_loses_it",
    "C21.mark_in_crescendo",
    "C21.opposite_hairpins_one_lost",
    "C21.two_crescendos_one_lost",
    "C21.start_before_stop_shrinks",
    "C21.overlapping_hairpins_word"
   ],
   "note": "Proved for all hairpins of a part that follow one another, with any marks at their ends and between them. Proved false for every hairpin with a mark strictly inside: it becomes a word. Witnesses: hairpins of a part that start together, overlap, or start where one of a later staff ends. The notes found at the start and end times are not modelled."
  },
  {
   "property": "C104",
   "status": "partial",
   "theorems": [
    "C21.metronome_number_partial",
    "C21.metronome_number_rounded",
    "C21.number_mark_read",
    "C21.slow_tempo_lost",
    "C21.named_tempo_never_read",
    "C21.beat_note_names",
    "C21.fourth_dot_dropped",
    "C21.tempo_text_read",
    "C21.tempo_text_round_trip",
    "C21.text_number_rounded",
    "C21.unknown_note_dropped",
    "C21.tempo_text_crash",
    "C21.earlier_lines_dropped",
    "C21.two_notes_in_text",
    "C21.mid_measure_words_lost",
    "C21.first_tempo_words_read",
    "C21.wordless_tempo_hides_others",
    "C21.excerpt_words_lost",
    "C21.other_parts_write_no_record",
    "C21.wordless_lower_part_hides",
    "C21.first_part_words_read"
   ],
   "note": "Proved: whole numbers survive and others are rounded; all note names and dots; every text with one note in standard form survives. Proved false, each for all such inputs: numbers below 1/2, *MM[name] tokens, a fourth dot, earlier lines of a text, words inside a measure, words beside a tempo without words, words before a bar line numbered above 1. Witnesses: rounded numbers, unknown notes, a crash, two notes. HTML entities and the search for nearby *MM tokens are not modelled."
  },
  {
   "property": "C105",
   "status": "partial",
   "theorems": [
    "C21.lyric_round_trip_partial",
    "C21.verses_round_trip_partial",
    "C21.staff_lyrics_round_trip_partial",
    "C21.same_number_replaced",
    "C21.high_number_loses_all",
    "C21.low_number_not_written",
    "C21.later_voice_loses_lyrics",
    "C21.later_voice_overwrites",
    "C21.escaped_lyric_changed",
    "C21.lyric_texts_changed",
    "C21.verse_label_partial",
    "C21.label_points_swapped",
    "C21.label_parenthesis_crash"
   ],
   "note": "Proved: all lyrics of distinct numbers 1 to 100 with readable texts come back at the first note of the staff; labels without regular expression characters, except 'd'. Proved false, each for all such inputs: two lyrics of one number, a number above 100 or below 1, lyrics in later voices, texts starting with ! or *, labels ending with a parenthesis. Witnesses: overwritten verses, a point, hyphens, apostrophes, blanks. music21's rawText and setTextAndSyllabic are modelled as documented; HTML entities and text colours are not modelled."
  },
  {
   "property": "C106",
   "status": "partial",
   "theorems": [
    "C21.ottavas_round_trip_partial",
    "C21.ottava_marks_read",
    "C21.three_octaves_read_as_one",
    "C21.lower_voice_stretched",
    "C21.stop_in_gap_never_written",
    "C21.overlapping_ottava_lost"
   ],
   "note": "Proved: for staves of any number of voices and measures without gaps, octave lines of one kind that follow one another and contain everything that starts within them are read with the same times. False, with witnesses: an ottava in a lower voice under a longer note, one ending in a gap, overlapping ones; three octaves, for all marks. Ottavas of different kinds are separate in the code and are not modelled together."
  },
  {
   "property": "C107",
   "status": "partial",
   "theorems": [
    "C21.measures_round_trip_partial",
    "C21.number_round_trip",
    "C21.suffix_cut",
    "C21.negative_number_positive",
    "C21.zero_length_measure_joined",
    "C21.empty_first_number",
    "C21.upbeat_unnumbered"
   ],
   "note": "Proved: every list of measures with lengths and data, numbers that are not negative and suffixes of at most one small letter is read back, whatever the barline styles. Proved false, each for all such inputs: longer or other suffixes, negative numbers, measures of length 0, a first measure without data. Rehearsal marks before barlines and !!ignore are not modelled; digits are ASCII."
  },
  {
   "property": "C108",
   "status": "partial",
   "theorems": [
    "C21.arpeggios_round_trip_partial",
    "C21.voices_arpeggios_joined",
    "C21.system_arpeggio_lost",
    "C21.second_staff_arpeggio_lost",
    "C21.interrupted_arpeggio_cut",
    "C21.arpeggio_marks_add"
   ],
   "note": "Proved for lines where each note has at most one arpeggio, the notes of an arpeggio are next to each other, one within a staff is the only one of its staff, and none stands left of one across staves. Without these conditions the claim is proved false. The types of arpeggio (up, down, non-arpeggio) are not written at all and not modelled."
  },
  {
   "property": "C109",
   "status": "partial",
   "theorems": [
    "C21.harte_round_trip_partial",
    "C21.no_chord_round_trip",
    "C21.bass_round_trip",
    "C21.flat_bass_unreadable",
    "C21.omitted_flat_degree_lost",
    "C21.omit_and_alter_fails",
    "C21.chromatic_bass_unreadable",
    "C21.root_modification_lost",
    "C21.unknown_kind_lost"
   ],
   "note": "Proved for chords of a kind in both tables, any number of added degrees, and either omitted natural degrees or altered degrees, with a bass that is above or below the root by letter and by sound alike and not a doubly flattened second, third, sixth or seventh. Without these conditions the claim is proved false. Without modifications the chord symbol comes back the same; otherwise with the same notes, under the kind that covers most of them. music21's intervals and pitches are modelled by their definitions, its table of kinds is a parameter; the printed figure is not modelled."
  },
  {
   "property": "C11",
   "status": "partial",
   "theorems": [
    "C21.line_rebuild",
    "C21.line_roundtrip_partial",
    "C21.line_leading_tab_lost",
    "C21.tokens_clean",
    "C21.tabs_match",
    "C21.tokens_roundtrip"
   ],
   "note": "Leading tabs are lost (negation proved)."
  },
  {
   "property": "C110",
   "status": "partial",
   "theorems": [
    "C21.tie_types_round_trip",
    "C21.hanging_tie_round_trip",
    "C21.plain_ties_round_trip_partial",
    "C21.tie_styles_move_back",
    "C21.matched_tie_style_lost",
    "C21.let_ring_lost"
   ],
   "note": "The type of every tie is kept for every list of notes, except let-ring ties, which are proved lost. Style and placement are kept for ties that end at no note, and if no tie has any. For ties that do end at a note they are proved wrong: each tie of a chain comes back with the style and placement of the next note's tie. Layout comments are taken to reach their note (C56, C67). Linked ties are left out: the exporter never writes them."
  },
  {
   "property": "C111",
   "status": "partial",
   "theorems": [
    "C21.slurs_round_trip_partial",
    "C21.crossing_slurs_repaired",
    "C21.shorter_slur_first",
    "C21.double_slurs_get_places",
    "C21.one_note_slur_takes_an_end"
   ],
   "note": "Proved for every set of slurs of one layer that do not cross, if every note lists longer slurs first and slurs between the same two notes have placements. Each of these conditions is shown to be needed by a counterexample. Missing: chord notes (written like notes), slurs between layers, the invisible slurs ('y') and layout parameters for slurs, which the exporter never writes."
  },
  {
   "property": "C112",
   "status": "partial",
   "theorems": [
    "C21.note_looks_round_trip_partial",
    "C21.noteheads_round_trip_partial",
    "C21.fill_hides_notehead",
    "C21.other_noteheads_lost",
    "C21.stemless_note_gets_a_stem",
    "C21.stemless_grace_loses_type"
   ],
   "note": "Proved for all lists of notes: grace kind, stem, cue size, color and visibility, for notes without tremolo and colors without words of another meaning (C63). Noteheads: diamond, cross, and fill of usual noteheads. The rest is false of the code and proved so: fill hides the shape, other shapes are lost, notes that are no grace notes get a stem, stemless grace notes lose their type. Missing: chords, and the *head and spine color interpretations, which the exporter never writes."
  },
  {
   "property": "C113",
   "status": "partial",
   "theorems": [
    "C21.head_scan",
    "C21.instrument_round_trip_partial",
    "C21.part_name_kept",
    "C21.lone_staff_loses_abbreviation",
    "C21.transposing_part_loses_name",
    "C21.dummy_names_lost",
    "C21.quoted_name_lost",
    "C21.abbreviation_becomes_name",
    "C21.instrument_key_never_named",
    "C21.bare_clef_crashes"
   ],
   "note": "Proved for every header of valid items and every real name. The rest is false of the code and proved so: abbreviations of a lone staff, names of transposing instruments on several staves, names with certain words or a quote at the start, abbreviations without name; also the key of an instrument given by code is never added to its name. Missing: numbers of staff lines, which the importer reads but never uses; transpositions that change within a piece; what music21 makes of a name (fromString)."
  },
  {
   "property": "C114",
   "status": "partial",
   "theorems": [
    "C21.rehearsal_round_trip_partial",
    "C21.first_bar_marks",
    "C21.later_bar_marks",
    "C21.next_barline_found",
    "C21.default_style_read",
    "C21.mark_with_defaults",
    "C21.height_becomes_placement",
    "C21.pickup_mark_not_found",
    "C21.escaped_text_not_restored",
    "C21.other_enclosures_lost",
    "C21.glyph_mark_crashes",
    "C21.missing_staff_crashes"
   ],
   "note": "Proved for every list of marks with plain text and a style Humdrum has words for; marks of one measure come back in the opposite order. The rest is false of the code and proved so: texts with colons or line breaks come back escaped, other enclosures are lost, a text ending in a note glyph stops the export, a staff number beyond the score stops the import, marks of a measure without barline are not looked for. Missing: the text of floats that are not whole (a parameter), the unescaping of entities in default style lines (a parameter)."
  },
  {
   "property": "C115",
   "status": "partial",
   "theorems": [
    "C21.harmony_round_trip_partial",
    "C21.other_comments_ignored",
    "C21.hidden_symbols_not_read",
    "C21.symbol_follows_kern",
    "C21.symbol_after_mens_dropped",
    "C21.symbol_before_staves",
    "C21.mxhm_round_trip",
    "C21.end_symbol_drops_rest",
    "C21.kind_text_lost",
    "C21.unnamed_chord_shifts_texts",
    "C21.harmony_text_cut",
    "C21.kindless_mxhm_lost",
    "C21.blank_mxhm_crashes"
   ],
   "note": "Proved for every list of symbols whose texts the reader knows and whose printed texts have no colon. The rest is false of the code and proved so: a symbol at the end of a measure loses every symbol after it in the list, the text of the kind is lost beside a full text, a chord without a Harte text shifts the printed texts of the others at its place, a colon cuts a text, a symbol left of all staves goes to the bottom staff, an mxhm chord without a kind is lost and a blank mxhm token stops the import."
  },
  {
   "property": "C116",
   "status": "partial",
   "theorems": [
    "C21.chord_notes_round_trip_partial",
    "C21.chord_signs_once",
    "C21.chord_signs_place",
    "C21.chord_stem_round_trip",
    "C21.chord_hidden_round_trip",
    "C21.chord_note_parameters",
    "C21.chord_visual_duration",
    "C21.single_note_chord_cut",
    "C21.number_leaks",
    "C21.second_comment_unread",
    "C21.bad_note_number_raises",
    "C21.visual_duration_halved_per_note",
    "C21.rest_dropped_from_chord"
   ],
   "note": "Notes proved for octaves from 0 up and signs that are no parts of pitches. The rest is false of the code and proved so: a chord of one note loses its beams and slur ends, the number of one comment stays in force for later comments, a second comment for a note is not read, a bad number raises, and a visual duration is halved once per note under a tremolo. music21 sorts the notes of a chord afterwards; that is not modelled."
  },
  {
   "property": "C117",
   "status": "partial",
   "theorems": [
    "C21.time_signatures_round_trip_partial",
    "C21.keys_round_trip_partial",
    "C21.key_signatures_round_trip_partial",
    "C21.no_time_signature_appears",
    "C21.no_key_signature_appears",
    "C21.clef_line",
    "C21.clef_written",
    "C21.graces_around",
    "C21.signature_lines_written",
    "C21.key_name_lost",
    "C21.metersymbol_lost"
   ],
   "note": "Proved for one key signature and one time signature per staff and moment. The full statement is false of the code and proved so: whether the lines with key names and meter symbols are written is decided by the last signature of all staves, so a last staff without them takes them from all other staves. Key signatures of more than seven sharps are C50's exceptions. For clefs the written tokens are proved; C100 has how one token is read."
  },
  {
   "property": "C118",
   "status": "partial",
   "theorems": [
    "C21.dynamic_place_round_trip_partial",
    "C21.hairpin_place_round_trip_partial",
    "C21.unplaced_dynamic_default",
    "C21.next_staff_untouched",
    "C21.processed_once",
    "C21.last_interpretation",
    "C21.unplaced_dynamic_moves",
    "C21.middle_dynamic_moves",
    "C21.middle_hairpin_lost",
    "C21.interpretation_overrides",
    "C21.grace_takes_other_dynamics",
    "C21.dynamic_doubled"
   ],
   "note": "Proved for dynamics above and below, and hairpins also in the middle under lower staves. The full statement is false of the code and proved so: dynamics without a place, or in the middle, on a lower staff move to the top staff of the part; a hairpin in the middle under the top staff loses its place; grace notes take the dynamics of other staves; a second **dynam spine repeats the dynamic of the first. Dynamics sharing a token with another (`n=`) are not in the model."
  },
  {
   "property": "C119",
   "status": "partial",
   "theorems": [
    "C21.strands_partition_partial",
    "C21.starts_first",
    "C21.sounding_self",
    "C21.no_color",
    "C21.note_color",
    "C21.null_stands_for_previous_partial",
    "C21.file_nulls_partial",
    "C21.first_null_takes_other",
    "C21.color_from_other_spine",
    "C21.null_of_second_voice"
   ],
   "note": "Proved for files with correct manipulators and no spines added after the first line, up to 1000 fields per line (the code's limit). A null token with no other token before it in its strand stands for the last token of the strands before, which may be another spine or later in time: proved in general and on files, one of which gives a note the color `4d`."
  },
  {
   "property": "C12",
   "status": "partial",
   "theorems": [
    "C21.file_roundtrip_partial",
    "C21.read_empty_fails",
    "C21.read_stops_at_eos",
    "C21.read_edits_bare_rhythm",
    "C21.read_edits_mixed_line"
   ],
   "note": "Exceptions proved false by witnesses."
  },
  {
   "property": "C120",
   "status": "partial",
   "theorems": [
    "C21.text_round_trip_partial",
    "C21.texts_of_a_note_partial",
    "C21.other_comments_silent",
    "C21.system_text_once",
    "C21.first_of_staff",
    "C21.no_bracket_no_mark",
    "C21.unplaced_text_above",
    "C21.empty_text_lost",
    "C21.beat_text_becomes_tempo",
    "C21.system_text_repeated",
    "C21.text_changes"
   ],
   "note": "Proved for texts that are not empty, have no `&`, backslash, control space or metronome glyph and no space at an end, are no metronome mark, and have a place and a look Humdrum has words for. Proved false otherwise: a text without a place comes back above, an empty text is lost, a text with a beat or before a time signature becomes a tempo, a centered system text is shown on every staff, bold weight becomes a style, left justification and a last line break are lost."
  },
  {
   "property": "C121",
   "status": "partial",
   "theorems": [
    "C21.metadata_round_trip_partial",
    "C21.language_stops_export",
    "C21.language_stops_export_example",
    "C21.same_title_lost",
    "C21.metadata_changes"
   ],
   "note": "Proved for names with a reference key, keys of Humdrum without a name, keys of one's own without language, and performers and publication editors; texts without `&`, backslash or space at an end, languages of small letters, and values that differ. Proved false otherwise: a text with a language under a name without a key stops the export, a title that is the movement's name too is lost, a language with a region turns the record into a raw key, further names of a contributor, the role of other contributors and the language of their names are lost."
  },
  {
   "property": "C122",
   "status": "partial",
   "theorems": [
    "C21.voices_repaired",
    "C21.measures_repaired",
    "C21.measures_aligned",
    "C21.measures_filled",
    "C21.sound_score_unchanged",
    "C21.ragged_score_fails",
    "C21.ragged_score_fails_example",
    "C21.together_becomes_apart"
   ],
   "note": "Proved for scores whose parts have equally many measures. Proved false for all others: an IndexError is raised where an empty measure was to be added. Also proved: notes that start together in one voice are put one after the other, so that the measure gets longer."
  },
  {
   "property": "C123",
   "status": "partial",
   "theorems": [
    "C21.exported_spines_partial",
    "C21.bars_in_place",
    "C21.first_bar_before_music",
    "C21.global_lines_single",
    "C21.global_line_gets_tokens",
    "C21.empty_measure_breaks",
    "C21.empty_last_measure_breaks",
    "C21.zero_first_measure_breaks",
    "C21.global_last_line_breaks"
   ],
   "note": "Proved for grids in which every measure has a length and a line with spines, the first has music and the last ends with a line with spines, when all staves belong to one part or two neighbouring staves never both have several voices (see C37); bar lines are proved to be in place for all voices. Proved false: in one staff of two voices a global line gets a second token; an empty measure makes the spines be split or merged wrongly; a first measure of length 0 that starts with two voices is never split; after a global last line the last bar line has too few tokens."
  },
  {
   "property": "C124",
   "status": "partial",
   "theorems": [
    "C21.beams_go_on",
    "C21.only_ends_change",
    "C21.stops_kept_across",
    "C21.sound_beams_unchanged",
    "C21.twice_repairs",
    "C21.two_stops_left",
    "C21.rest_measure_leaves_beam",
    "C21.ended_voice_leaves_beam"
   ],
   "note": "Proved for voices that have notes in every measure they are in and are in the last measure. Proved false otherwise: a beam at the end of a measure is left as it is when the voice then has only rests or ends. Also proved: one call can leave or make two stops in a row, and two calls never do; a third changes nothing."
  },
  {
   "property": "C125",
   "status": "partial",
   "theorems": [
    "C21.nulls_written",
    "C21.notes_filled",
    "C21.tokens_kept",
    "C21.no_holes",
    "C21.own_time_breaks"
   ],
   "note": "Proved for grids in which a line without notes has the time of the line after it. Proved false otherwise: an interpretation with a time of its own is not counted, so the note is taken to last longer and an exception is raised although no notes overlap. That the writer makes only grids of the first kind is not proved."
  },
  {
   "property": "C126",
   "status": "partial",
   "theorems": [
    "C21.slur_elements",
    "C21.slur_attributes",
    "C21.slur_count",
    "C21.slur_turned_round",
    "C21.staves_share_numbers"
   ],
   "note": "Proved for slur elements and, if no slur ends that was not started, for attributes; the random ids are taken to be different from each other and from the numbers. Proved false: a slur whose end is read before its start begins with its end; slurs of the same number in two staves get each other's ends. Slurs at notes within chords are not modelled."
  },
  {
   "property": "C127",
   "status": "partial",
   "theorems": [
    "C21.track_durations_partial",
    "C21.only_durations_change",
    "C21.durations_nonneg",
    "C21.spine_covered",
    "C21.data_after_merge_breaks",
    "C21.second_split_breaks"
   ],
   "note": "Proved if no line of data stands right after a merge and only the leftmost spine of a split is split again. Proved false without: after a merge directly followed by data, the last token of the second spine lasts beyond that data; in a second spine that was split and merged again, tokens keep the duration -1."
  },
  {
   "property": "C128",
   "status": "partial",
   "theorems": [
    "C21.pedals_paired_partial",
    "C21.pedals_each_once",
    "C21.mark_of_staff",
    "C21.note_pedals_partial",
    "C21.missing_up_breaks",
    "C21.same_note_breaks"
   ],
   "note": "Proved for staves where downs and ups come in pairs and for notes without two pedals of the same kind. Proved false: after a down without an up all later pedals of the staff are paired wrongly; if pedals of two staves go down at the same note, one mark loses its start. What a mark does with its notes is not modelled."
  },
  {
   "property": "C129",
   "status": "partial",
   "theorems": [
    "C21.text_of_figure",
    "C21.label_of_figure",
    "C21.figure_read_again",
    "C21.comes_back_iff",
    "C21.reading_ends",
    "C21.reading_hangs",
    "C21.chord_text_changes"
   ],
   "note": "For figures without spaces, the letter o and the words dim, add, alter and subtract: proved what is written, the label, and that the figure comes back exactly if there is no b in the kind and no flat in the bass. Proved false: reading never ends for any text that begins with an accidental; a flat bass or degree comes back in another spelling. Figures with words are only covered by examples."
  },
  {
   "property": "C13",
   "status": "partial",
   "theorems": [
    "C21.class_agrees_partial",
    "C21.class_leading_tab",
    "C21.class_only_tabs",
    "C21.reference_is_global"
   ],
   "note": "Lines with a leading tab are misclassified (negations proved)."
  },
  {
   "property": "C130",
   "status": "partial",
   "theorems": [
    "C21.holes_filled",
    "C21.hole_duration_partial",
    "C21.last_staff_breaks",
    "C21.last_voice_breaks"
   ],
   "note": "Proved that all empty places of note lines, and only these, become rests. The duration is proved for staves that are neither the last of their part nor in the last part, and voices that are never the last. Proved false for the others: in the last staff or part a rest lasts for its own line only; a rest in the last voice lasts until the end."
  },
  {
   "property": "C131",
   "status": "partial",
   "theorems": [
    "C21.note_texts_partial",
    "C21.tempo_never_found",
    "C21.tempo_is_dynamic",
    "C21.second_dir_breaks"
   ],
   "note": "Proved for notes with at most one direction, at most one dynamic and no tempo. Proved false: a tempo attached to a note always becomes a dynamic and replaces the dynamic of the note; of two directions at a note one is lost, and its placement goes to the other."
  },
  {
   "property": "C132",
   "status": "partial",
   "theorems": [
    "C21.arpeggio_joins_partial",
    "C21.arpeggio_mark_partial",
    "C21.arpeggio_last",
    "C21.arpeggio_type",
    "C21.arpeggio_type_other",
    "C21.two_arpeggios_break",
    "C21.arpeggio_of_one_breaks"
   ],
   "note": "Proved if no note is in two arpeggios of several notes, or named alone by two elements, or named twice by one element. In all files whose elements name no note twice, a note is in the last arpeggio that names it. Proved false: a note in two arpeggios is only put into the last; a note named once with and once without # is taken for two notes. Elements without references are handled elsewhere and not modelled."
  },
  {
   "property": "C133",
   "status": "partial",
   "theorems": [
    "C21.hairpin_ends_partial",
    "C21.ottava_ends_partial",
    "C21.hairpins_only",
    "C21.ottavas_only",
    "C21.shared_start_breaks",
    "C21.shared_end_breaks",
    "C21.other_staff_turns"
   ],
   "note": "Proved for spanners with a start note at which no other starts and an end note at which no other ends, the start note being read first. Proved false: of two hairpins that start, or end, at the same note the first loses this note; when the end note is read first the order is turned round. Placement and time stamps are not modelled."
  },
  {
   "property": "C134",
   "status": "partial",
   "theorems": [
    "C21.ornament_found_partial",
    "C21.no_ornament",
    "C21.mordent_form_breaks",
    "C21.second_mordent_breaks"
   ],
   "note": "Proved for notes with one element of a kind and values of the standard. Proved false: a mordent with another form makes the reader fail with an unbound variable; of two mordents at a note there is one, and it mixes the attributes of both. Ornamental pitches and trill extensions are not modelled."
  },
  {
   "property": "C135",
   "status": "partial",
   "theorems": [
    "C21.output_name_kept",
    "C21.output_name_replaced",
    "C21.output_name_added",
    "C21.output_ext_valid_partial",
    "C21.output_name_stable",
    "C21.output_names_collide",
    "C21.dot_name_breaks"
   ],
   "note": "The extension is proved valid for all paths that end with a name that is not only dots. Proved false: a path that ends with a folder or is only an extension gets a file without extension, or a second one; different names, as op.1 and op.2, give the same file. Output to - is not modelled."
  },
  {
   "property": "C136",
   "status": "partial",
   "theorems": [
    "C21.fermata_found_partial",
    "C21.no_fermata",
    "C21.fermata_iff",
    "C21.second_fermata_breaks"
   ],
   "note": "That there is a fermata exactly if one is attached is proved for all files; its placement, form and shape for notes with one element. Proved false: of two fermatas at a note there is one, which mixes the attributes of both. Notes with an attribute @fermata of their own are not modelled."
  },
  {
   "property": "C14",
   "status": "partial",
   "theorems": [
    "C21.reference_global",
    "C21.reference_universal_key_partial",
    "C21.reference_universal_value_wrong",
    "C21.reference_accepts_prose"
   ],
   "note": "Universal records return the key as value (negation proved)."
  },
  {
   "property": "C15",
   "status": "partial",
   "theorems": [
    "C21.file_accepted_partial",
    "C21.file_counts_partial",
    "C21.stray_merge_accepted",
    "C21.two_added_rejected",
    "C21.merge_tracks_file_crashes"
   ],
   "note": "Strict mode. Soundness of counts up to a stray final *v (shown to be accepted); acceptance except two added spines on a line and merges across three tracks (shown to fail)."
  },
  {
   "property": "C16",
   "status": "partial",
   "theorems": [
    "C21.split_merge_restores_partial",
    "C21.trackOf_describe",
    "C21.merge_two_tracks_loses_track",
    "C21.merge_three_tracks_crashes",
    "C21.merge_wrong_track"
   ],
   "note": "Full for sub-spines of one spine in one merge; merges across tracks proved wrong."
  },
  {
   "property": "C17",
   "status": "proved",
   "theorems": [
    "C21.stitch_connects",
    "C21.connections_forward",
    "C21.connections_backward",
    "C21.connections_track",
    "C21.links_mutual",
    "C21.links_exact",
    "C21.file_links"
   ],
   "note": "Strict mode; tracks as derived from spine descriptions."
  },
  {
   "property": "C18",
   "status": "proved",
   "theorems": [
    "C21.subtrack_numbers",
    "C21.subtrack_of_spines",
    "C21.analyzeTracks_ok"
   ],
   "note": ""
  },
  {
   "property": "C19",
   "status": "partial",
   "theorems": [
    "C21.times_telescope_partial",
    "C21.lineDurations_get",
    "C21.fillIn_spec",
    "C21.fillIn_unknown",
    "C21.fillIn_sorted",
    "C21.running_telescope",
    "C21.running_score",
    "C21.file_times",
    "C21.times_can_decrease"
   ],
   "note": "Telescoping holds whenever start times are in order (fillIn_sorted, nullLoop_inOrder, file_times say when they are). They need not be: times_can_decrease is an accepted file where they are not."
  },
  {
   "property": "C20",
   "status": "proved",
   "theorems": [
    "C21.fromBarline_spec",
    "C21.toBarline_spec",
    "C21.measure_times",
    "C21.barlineTable_spec"
   ],
   "note": ""
  },
  {
   "property": "C21",
   "status": "proved",
   "theorems": [
    "C21.null_lines_interpolated",
    "C21.null_lines_between",
    "C21.null_lines_keep",
    "C21.nullLoop_inOrder"
   ],
   "note": "Null lines before the first timed line of a measure get the time of that line (fillIn_spec)."
  },
  {
   "property": "C22",
   "status": "proved",
   "theorems": [
    "C21.tpq_least",
    "C21.tpq_perm"
   ],
   "note": ""
  },
  {
   "property": "C23",
   "status": "partial",
   "theorems": [
    "C21.analyzeLines_numbered",
    "C21.insertLine_numbered",
    "C21.insertions_numbered_partial",
    "C21.appendLine_not_numbered",
    "C21.insertLine_past_end_not_numbered",
    "C21.insert_position"
   ],
   "note": "appendLine and insertion past the end leave lines unnumbered (negations proved)."
  },
  {
   "property": "C24",
   "status": "partial",
   "theorems": [
    "C21.cache_coherent_partial",
    "C21.ask_inert",
    "C21.rest_goes_stale"
   ],
   "note": "All 31 cached questions, all histories. isRest of a null token goes stale when the token it stands for changes (negation proved). The data type is an input: changes of the exclusive interpretation's own text are not tracked by the code."
  },
  {
   "property": "C25",
   "status": "partial",
   "theorems": [
    "C21.subtokens_replace_partial",
    "C21.replace_ok",
    "C21.subtoken_space_stale"
   ],
   "note": "Replacement texts without spaces; with a space the cached list is wrong (negation proved)."
  },
  {
   "property": "C26",
   "status": "partial",
   "theorems": [
    "C21.slur_matching_partial",
    "C21.slur_marks_once",
    "C21.tokEvents_slur",
    "C21.elisionLevel_spec",
    "C21.slur_recorded",
    "C21.slur_end_never_found",
    "C21.slur_number_wrong",
    "C21.slur_other_layer",
    "C21.slur_deep_elision_fails",
    "C21.linked_end_missed",
    "C21.second_ending_missed"
   ],
   "note": "Links are exactly the matching bracket pairs per elision level when the marks of different layers are apart (LayersApart); every mark is used at most once for any layers. Recorded start tokens are read back from ends. False in general: cross-layer closings, elision level 4+, recorded start number with mixed levels, end from start never found, second endings."
  },
  {
   "property": "C27",
   "status": "partial",
   "theorems": [
    "C21.phrase_events_partial",
    "C21.phrase_without_slurs_ignored",
    "C21.phrase_needs_slurs",
    "C21.slur_end_never_found"
   ],
   "note": "Phrases follow the slur analysis when every line with a phrase mark is analysed; false in general: lines without slur marks are skipped."
  },
  {
   "property": "C28",
   "status": "partial",
   "theorems": [
    "C21.linked_ties_partial",
    "C21.tied_unique",
    "C21.linked_ties_off",
    "C21.ties_recorded",
    "C21.linkTie_get",
    "C21.tie_two_marks_wrong",
    "C21.tie_low_pitch_wrong",
    "C21.tie_high_pitch_fails"
   ],
   "note": "Every note that carries at most one tie mark, within the pitch range the tables hold, is paired with the nearest earlier open tie of its pitch on its staff, and the recorded parameters name it. Missing: notes with two marks, pitches outside the table (both proved to go wrong)."
  },
  {
   "property": "C29",
   "status": "partial",
   "theorems": [
    "C21.accidentals_read_back_partial",
    "C21.fillKeySignature_spec",
    "C21.acc_sample",
    "C21.acc_sample_readable",
    "C21.acc_turn_wrong",
    "C21.acc_hidden_wrong",
    "C21.acc_chord_with_rest_skipped",
    "C21.acc_range_wrong"
   ],
   "note": "A reader who knows the key signature and the accidentals already printed in the measure reads back the pitch meant by every note. Missing: turns, hidden notes, chords with rests and pitches outside the table, each proved to go wrong."
  },
  {
   "property": "C30",
   "status": "partial",
   "theorems": [
    "C21.rest_placed",
    "C21.rest_even",
    "C21.rest_unplaced",
    "C21.rest_positions",
    "C21.rest_roundtrip_partial",
    "C21.rest_roundtrip_wrong"
   ],
   "note": "Every rest with a pitch is put an even number of steps from the middle line, at most one step from its pitch, using the last clef of its track; this holds in full. The added claim that exported positions come back holds for even shifts only (odd ones proved to move)."
  },
  {
   "property": "C31",
   "status": "partial",
   "theorems": [
    "C21.color_tracks_equal",
    "C21.color_leaks",
    "C21.color_single_track_partial"
   ],
   "note": "The property is false: all tracks share one row, so a color given in one track is the color of all. Proved: the negation, the equality of all tracks for any input, and the property for files with marks in one track only."
  },
  {
   "property": "C32",
   "status": "proved",
   "theorems": [
    "C21.rdf_tables",
    "C21.rdf_aligned"
   ],
   "note": "The tables are the entries of the records meant for them, in order; textMarks/colors, noteMarks/colors/directions and editorial accidentals/types stay aligned for all lines."
  },
  {
   "property": "C33",
   "status": "proved",
   "theorems": [
    "C21.rdf_unambiguous",
    "C21.rdf_reserved_last",
    "C21.rdf_favorite",
    "C21.rdf_nine",
    "C21.rdf_ten_colors_fail"
   ],
   "note": "Same character iff same definition, reserved characters last, favorite when free, for all request sequences that succeed. Requests succeed exactly up to nine different definitions; a score with ten note colors cannot be exported (proved)."
  },
  {
   "property": "C34",
   "status": "partial",
   "theorems": [
    "C21.measure_in_order_partial",
    "C21.step_keeps_order",
    "C21.step_keeps_tokens",
    "C21.tokens_survive",
    "C21.typed_arrives",
    "C21.global_arrives",
    "C21.layout_arrives_partial",
    "C21.label_arrives",
    "C21.text_layout_arrives",
    "C21.layout_end_arrives",
    "C21.tuplet_arrives_partial",
    "C21.ottavasAt_order",
    "C21.ottavasEnd_order",
    "C21.insertByTime_spec",
    "C21.layout_of_first_line_misplaced",
    "C21.end_after_global_crashes",
    "C21.bounce_at_measure_end_reversed",
    "C21.addData_after_later_clef"
   ],
   "note": "For all histories of the operations the exporter uses (Admissible says how it uses them): lines in order of time, one note line per time, every line and every token kept but for the cell an operation is meant for, and the added tokens arrive at their time. Not full because the statement is false of addDataToken, which nothing calls (addData_after_later_clef), and because a layout comment for the first line of a measure can land at its end (layout_of_first_line_misplaced)."
  },
  {
   "property": "C35",
   "status": "partial",
   "theorems": [
    "C21.addToken_spec_partial",
    "C21.addToken_ok_iff",
    "C21.addToken_outside",
    "C21.negative_voice_overwrites",
    "C21.skipped_layer_crashes",
    "C21.setTokenLayer_spec",
    "C21.setNullTokenLayer_safe",
    "C21.setVerse_spec"
   ],
   "note": "Get/set laws for addToken, setTokenLayer, setNullTokenLayer, setVerse, for all slices, positions and tokens; success characterised exactly. Not full because the statement is false for negative voice numbers (negative_voice_overwrites) and for voices skipped by setTokenLayer (skipped_layer_crashes)."
  },
  {
   "property": "C36",
   "status": "partial",
   "theorems": [
    "C21.line_has_token_per_spine_partial",
    "C21.same_shape_same_count",
    "C21.emptyStr_ok",
    "C21.harmony_beyond_flags"
   ],
   "note": "Every spined line is, spine for spine, what the slice holds or the slice's empty text, so counts agree; needs that the grid knows the verses and harmonies (SidesFit), which fails beyond 100 parts (harmony_beyond_flags). The optional recip column is not modelled."
  },
  {
   "property": "C37",
   "status": "partial",
   "theorems": [
    "C21.manipulators_read_back_partial",
    "C21.manipulators_one_part",
    "C21.manipulators_no_neighbours",
    "C21.four_staves_merge_broken",
    "C21.split_below_merge_broken"
   ],
   "note": "The manipulator lines between two lines with the same staves (all numbers of voices, all numbers of parts and staves) are read back as exactly the wanted spines when below a part with two neighbouring losing staves there are no two such staves and no gaining staff (or some staff gains several voices, which triggers the repair). Always true for one part and when no two neighbouring staves lose voices. Outside it is false; witnesses are proved. Walking the whole file and side spines (dynamics, lyrics) are not modelled."
  },
  {
   "property": "C38",
   "status": "proved",
   "theorems": [
    "C21.pop_returns_due",
    "C21.pop_twice",
    "C21.pop_elsewhere",
    "C21.finish_writes_rest"
   ],
   "note": "For all interleavings of stores and pops."
  },
  {
   "property": "C39",
   "status": "proved",
   "theorems": [
    "C21.increment_sectionName",
    "C21.sectionName_inj",
    "C21.sections_distinct"
   ],
   "note": "For every number of sections; sections_distinct is for every sequence of measures."
  },
  {
   "property": "C40",
   "status": "partial",
   "theorems": [
    "C21.split_sum",
    "C21.split_notatable",
    "C21.split_possible",
    "C21.splitDurations_spec",
    "C21.splitDurations_possible",
    "C21.crossing_partial",
    "C21.crossing_loses_note"
   ],
   "note": "The splitting loop is proved in full. Splitting at a crossing is proved when music21's own split of tuplets is usable; crossing_loses_note shows a case where a piece is lost."
  },
  {
   "property": "C41",
   "status": "proved",
   "theorems": [
    "C21.dots_recognised",
    "C21.dots_not_recognised",
    "C21.dots_agree",
    "C21.dotted_unique"
   ],
   "note": "All rationals and any number of dots."
  },
  {
   "property": "C42",
   "status": "proved",
   "theorems": [
    "C21.xmlid_injective",
    "C21.xmlid_starts_with_letter",
    "C21.xmlid_string_collides"
   ],
   "note": "All integer ids and all prefixes. String ids can collide (xmlid_string_collides)."
  },
  {
   "property": "C43",
   "status": "partial",
   "theorems": [
    "C21.date_roundtrip_partial",
    "C21.date_reread",
    "C21.prim_roundtrip",
    "C21.range_roundtrip",
    "C21.date_midnight_lost",
    "C21.date_infinite_second_crashes",
    "C21.prim_on_or_before_lost",
    "C21.prim_and_lost"
   ],
   "note": "date_roundtrip_partial characterises exactly the dates that come back (if and only if). The full statement is false for values of 0, for selections joined by 'and' and for 'on or before' and 'on or after', as the other theorems show."
  },
  {
   "property": "C44",
   "status": "partial",
   "theorems": [
    "C21.iso_roundtrip_partial",
    "C21.iso_time_lost",
    "C21.edtf_roundtrip",
    "C21.edtf_qualifier_lost",
    "C21.edtf_mark_moves",
    "C21.edtf_inclusive_lost",
    "C21.nested_roundtrip",
    "C21.iso_unmarked",
    "C21.iso_attributes",
    "C21.edtf_no_text_iff",
    "C21.iso_attributes_none"
   ],
   "note": "iso_roundtrip_partial characterises exactly the dates that come back (if and only if). The full statement is false for times of day, for a qualified single date, for a mark on the last value and for 'on or before' and 'on or after', as the other theorems show."
  },
  {
   "property": "C45",
   "status": "proved",
   "theorems": [
    "C21.camel_roundtrip",
    "C21.spaced_roundtrip",
    "C21.spaced_digit_wrong"
   ],
   "note": "Both directions are characterised exactly (if and only if)."
  },
  {
   "property": "C46",
   "status": "partial",
   "theorems": [
    "C21.style_roundtrip_partial",
    "C21.bars_roundtrip_partial",
    "C21.barline_number",
    "C21.text_sides",
    "C21.repeat_style_lost",
    "C21.negative_number_invisible"
   ],
   "note": "style_roundtrip_partial and bars_roundtrip_partial characterise exactly what survives (if and only if), for all measure numbers. The full statement is false: the visual style of a repeat other than the usual one is lost on import (repeat_style_lost), a dashed barline on export; a negative number makes the barline invisible."
  },
  {
   "property": "C47",
   "status": "partial",
   "theorems": [
    "C21.combine_fails_iff",
    "C21.styleOfBar_fails",
    "C21.combine_fails",
    "C21.combine_both_partial",
    "C21.combine_keeps_repeats",
    "C21.combine_regular",
    "C21.combo_strokes",
    "C21.combo_first"
   ],
   "note": "The full statement is false: combine_fails_iff says exactly when the combination raises (a start of a repeat after a dotted, tick, short or invisible barline); the two other parts are proved for all styles."
  },
  {
   "property": "C48",
   "status": "partial",
   "theorems": [
    "C21.clean_no_separators",
    "C21.textLayout_parses",
    "C21.textLayout_color_unsafe",
    "C21.text_roundtrip_partial",
    "C21.text_roundtrip_fails_on_entities"
   ],
   "note": "Text safe and round trips; colour values are not escaped and text containing HTML entities does not survive (negations proved)."
  },
  {
   "property": "C49",
   "status": "partial",
   "theorems": [
    "C21.translateSMUFL_raises_iff",
    "C21.translateSMUFL_total_partial",
    "C21.translateSMUFL_not_total",
    "C21.translateSMUFL_no_glyph"
   ],
   "note": "Totality is false on some private-use glyphs; exact raising condition proved."
  },
  {
   "property": "C50",
   "status": "partial",
   "theorems": [
    "C21.signature_roundtrip_partial",
    "C21.key_roundtrip",
    "C21.signature_text_right",
    "C21.signature_seen_right",
    "C21.naturals_ignored",
    "C21.key_agrees",
    "C21.designation_roundtrip",
    "C21.big_signature_lost",
    "C21.huge_signature_fails",
    "C21.nonstandard_always_lost",
    "C21.nonstandard_lost"
   ],
   "note": "Signatures of up to 7 sharps or flats are read back; keys (signature and designation) up to 14; the text alters each step as the circle of fifths says; naturals in a signature make no difference; a designation that contradicts the signature is not used. False beyond: a signature of 8 to 14 without key is written but read as nothing, more than 14 fails, and a non-standard signature is never read (its letters are put in upper case and then looked for among lower case letters). music21's Key (sharps of a tonic and mode, case of minor) is modelled by its documented behaviour."
  },
  {
   "property": "C51",
   "status": "partial",
   "theorems": [
    "C21.tremolo_expansion_partial",
    "C21.finger_tremolo_partial",
    "C21.insertNulls_same",
    "C21.one_note_tremolo_overwrites",
    "C21.tremolo_zero_crashes",
    "C21.tremolo_slur_repeated",
    "C21.finger_tremolo_lines_past_end"
   ],
   "note": "Whole file: every marked note of a kern spine that is a tremolo of two or more eighths or shorter becomes notes at start + k*(4/v), each lasting 4/v, that fill the note, with the same pitches and marks, beamed, and with its ties outside; all else stays. Two-note tremolos likewise when the lines are there. False: a one-note tremolo overwrites the next note, value 0 raises, slurs are repeated on each note, a two-note tremolo adds lines past its end (negative durations at the end of the file). Spine splits during a tremolo and the added *tremolo lines are not modelled."
  },
  {
   "property": "C52",
   "status": "partial",
   "theorems": [
    "C21.export_value",
    "C21.export_grace",
    "C21.export_tuplet_partial",
    "C21.export_tuplet_wrong",
    "C21.export_tuplet_visible",
    "C21.export_unlinked",
    "C21.export_unlinked_tuplet",
    "C21.export_visual_two_dots_wrong",
    "C21.gridRecip_value"
   ],
   "note": "Exact for every duration outside tuplets, every grace note, and in tuplets unless the note is dotted and its undotted value is a power of two, where export_tuplet_wrong shows it is always wrong. The visual length of a doubly dotted note in a tuplet is wrong."
  },
  {
   "property": "C53",
   "status": "proved",
   "theorems": [
    "C21.decoration_lists_once",
    "C21.every_group_once",
    "C21.decoTree_ok",
    "C21.overlap_listed_twice",
    "C21.equal_groups_lost"
   ],
   "note": "For staff groups that are nested or disjoint with different staves; overlapping groups and three groups with equal staves are counterexamples without that hypothesis."
  },
  {
   "property": "C54",
   "status": "partial",
   "theorems": [
    "C21.rscale_counter",
    "C21.rscale_shown",
    "C21.rscale_value",
    "C21.rscale_duration_partial",
    "C21.rscale_dots_wrong"
   ],
   "note": "The counter equals the number of scaled tracks, and every note is shown with the last scale of its track. The rhythm shown stands for the scaled duration when scaling adds no dots; with added dots it is proved wrong."
  },
  {
   "property": "C55",
   "status": "partial",
   "theorems": [
    "C21.mens_duration_partial",
    "C21.mens_mark_after_shape_ignored"
   ],
   "note": "False for marks written after the note shape; negation proved."
  },
  {
   "property": "C56",
   "status": "proved",
   "theorems": [
    "C21.linked_in_order",
    "C21.linked_contents",
    "C21.addLinked_order",
    "C21.addLinked_index"
   ],
   "note": "For all sequences of links; linked_contents fixes the contents and the order within a line."
  },
  {
   "property": "C57",
   "status": "partial",
   "theorems": [
    "C21.text_repetition",
    "C21.repetition_bracketed_partial",
    "C21.repetition_unclosed",
    "C21.repetition_nested"
   ],
   "note": "Full characterisation of the three marks for every spine. Begin and end are paired in closed repeats without inner marks; an unclosed repeat and nested marks are proved to break the pairing."
  },
  {
   "property": "C58",
   "status": "proved",
   "theorems": [
    "C21.clef_baseline",
    "C21.clef_unknown"
   ],
   "note": ""
  },
  {
   "property": "C59",
   "status": "partial",
   "theorems": [
    "C21.stop_list_exact_partial",
    "C21.track_end_misplaced"
   ],
   "note": "The global list is exact; the per-track lists are wrong (negation proved)."
  },
  {
   "property": "C60",
   "status": "partial",
   "theorems": [
    "C21.rhythm_sound_partial",
    "C21.rhythm_next",
    "C21.merge_unchecked",
    "C21.unequal_ends_accepted"
   ],
   "note": "Spines that begin on the first line; after a merge only one of the previous tokens is known to end at the arrival time (negation proved). *- not on a line with notes."
  },
  {
   "property": "C61",
   "status": "proved",
   "theorems": [
    "C21.rhythm_complete",
    "C21.visit_fuel",
    "C21.file_times",
    "C21.sample_times",
    "C21.lineFacts_allNull"
   ],
   "note": "Rhythmic spines beginning on one line; **recip-first files are handled by running_telescope (C19), later spines by C62."
  },
  {
   "property": "C62",
   "status": "partial",
   "theorems": [
    "C21.floating_sound_partial",
    "C21.findKnown_leads",
    "C21.findKnown_of_leads",
    "C21.leads_unique",
    "C21.floating_unlinked",
    "C21.floating_example",
    "C21.floating_at_zero_rejected"
   ],
   "note": "A line at time 0 counts as not found (negation proved); a spine that would begin before time 0 is not covered."
  },
  {
   "property": "C63",
   "status": "partial",
   "theorems": [
    "C21.rdf_roundtrip_partial",
    "C21.rdf_color_word_wrong"
   ],
   "note": "Proved for every request sequence when colors have no quotes, spaces or words with another meaning; a color containing such a word is misread (proved)."
  },
  {
   "property": "C64",
   "status": "proved",
   "theorems": [
    "C21.refKey_roundtrip",
    "C21.refKey_distinct",
    "C21.otherRole_roundtrip",
    "C21.roleKey_spelling"
   ],
   "note": "The tables are the whole domain; spellings are all strings."
  },
  {
   "property": "C65",
   "status": "proved",
   "theorems": [
    "C21.sections_distinct"
   ],
   "note": "All flags, legal or not."
  },
  {
   "property": "C66",
   "status": "partial",
   "theorems": [
    "C21.endings_roundtrip_partial",
    "C21.endings_same_number_merge",
    "C21.ending_zero_crashes"
   ],
   "note": "endings_roundtrip_partial needs numbers from 1 and different numbers for neighbouring brackets; without that the statement is false of the code (endings_same_number_merge, ending_zero_crashes)."
  },
  {
   "property": "C67",
   "status": "proved",
   "theorems": [
    "C21.comments_link_next",
    "C21.strand_elsewhere",
    "C21.strand_keeps_order",
    "C21.strand_twice",
    "C21.global_comments_link_next",
    "C21.canHaveLayout_iff",
    "C21.glineOf_target"
   ],
   "note": "Parsing of the comment is modelled separately (C04)."
  },
  {
   "property": "C68",
   "status": "proved",
   "theorems": [
    "C21.decoration_roundtrip",
    "C21.ungrouped_staff_loses_groups",
    "C21.empty_group_crashes"
   ],
   "note": "The expansion of instrument classes, parts and groups and of * in hand-written decorations is not modelled; the exported text has none."
  },
  {
   "property": "C69",
   "status": "partial",
   "theorems": [
    "C21.header_lines_match_partial",
    "C21.header_count_matches",
    "C21.global_first_line_broken"
   ],
   "note": "The exclusive, part and termination lines are maps over the same list of spines as the music lines when the first slice of the first measure has spines; false otherwise (global_first_line_broken)."
  },
  {
   "property": "C70",
   "status": "partial",
   "theorems": [
    "C21.events_in_order_partial",
    "C21.sortEvents_spec",
    "C21.merge_spec",
    "C21.empty_staff_breaks_order"
   ],
   "note": "Proved for every measure in which each staff has an event. The full statement is false: with a staff without events between others, events are handled out of order and simultaneous events land on two lines (empty_staff_breaks_order)."
  },
  {
   "property": "C71",
   "status": "partial",
   "theorems": [
    "C21.voice_fills_measure_partial",
    "C21.voice_elements_kept",
    "C21.gap_of_two_rests_wrong"
   ],
   "note": "Proved when each gap between elements can be written with one rest (at the start and the end any number of rests is allowed). The full statement is false: the rests of a longer gap all get the same time (gap_of_two_rests_wrong). Dynamics sf/sfz that move to a note and wedges are left out."
  },
  {
   "property": "C72",
   "status": "proved",
   "theorems": [
    "C21.grace_columns"
   ],
   "note": "For all voices; the columns are read from the lines made by the exporter's loop."
  },
  {
   "property": "C73",
   "status": "partial",
   "theorems": [
    "C21.tuplets_look_the_same_partial",
    "C21.displayTokens_read",
    "C21.second_voice_hides_too_late",
    "C21.hiding_leaks_to_next_measure"
   ],
   "note": "Proved for staves in which the tuplets of each measure begin in the order of their voices (so for all staves with tuplets in one voice). The full statement is false: the exporter goes through the measure by time, the importer voice by voice (second_voice_hides_too_late, hiding_leaks_to_next_measure). That the importer finds the same tuplets is not modelled."
  },
  {
   "property": "C74",
   "status": "partial",
   "theorems": [
    "C21.pedals_read_back_partial",
    "C21.pedals_in_order",
    "C21.adjacent_pedals_merge"
   ],
   "note": "Read back if everything about the pedal happens at different times; the full statement is false: a mark that begins where another ends is merged with it (adjacent_pedals_merge). pedals_in_order holds for all token sequences."
  },
  {
   "property": "C75",
   "status": "partial",
   "theorems": [
    "C21.object_gets_its_line_partial",
    "C21.rest_voice_added",
    "C21.object_misplaced",
    "C21.searchNotes_spec",
    "C21.sliceStartsNote_iff"
   ],
   "note": "For places that need no tuplet, or measures as long as one note: the object's line is at its time, with an existing note or a rest of the new voice; the rests fill the measure, other spines are unchanged, all lines from the first note line on have the voice, and the measure meets the same conditions again with one voice more. False in general: object_misplaced (a measure of five quarters, an object at 4 1/3 is written at 1/3). The tuplet computation of music21 is a parameter assumed to keep the two sides."
  },
  {
   "property": "C76",
   "status": "partial",
   "theorems": [
    "C21.rebuild_same",
    "C21.localName_iff",
    "C21.findAll_docOrder",
    "C21.findFirst_docOrder",
    "C21.findFirst_findAll",
    "C21.findFirstWithAttributeValue_first_partial",
    "C21.findFirstWithAttributeValue_other_attribute"
   ],
   "note": "Writing and reading back, names and searches by name: proved for all trees. The attribute search matches any attribute whose name ends with the key (xml:id also matches startid): false in general, proved when no attribute name merely ends with the key."
  },
  {
   "property": "C77",
   "status": "partial",
   "theorems": [
    "C21.textFromElem_partial",
    "C21.chooseIndex_reading",
    "C21.sampleDir_safe",
    "C21.text_after_choice_lost",
    "C21.text_after_choice_ignored",
    "C21.editorial_text_doubled"
   ],
   "note": "False in general: the text after an app/choice is lost (replaced by what follows the reading inside it), text in elements inside add/corr/... comes twice. Proved for all trees without these two things. Text styles and the endAt argument are not modelled."
  },
  {
   "property": "C78",
   "status": "partial",
   "theorems": [
    "C21.tstampToBeat_nearest",
    "C21.tstampToBeat_recovers",
    "C21.tstamp_round_trip_partial",
    "C21.tstamp_not_read_back"
   ],
   "note": "The reading is proved for every number. The round trip holds for denominators of the beat up to 130 (beats below 10) or 13 (below 100); it is false beyond (six significant digits are too few: witness 10 + 1/24). Float rounding is an explicit perturbation of up to 1e-9."
  },
  {
   "property": "C79",
   "status": "partial",
   "theorems": [
    "C21.barlines_round_trip_partial",
    "C21.barCombine_comm",
    "C21.barCombine_assoc",
    "C21.barCombine_empty",
    "C21.barCombine_repeats",
    "C21.barline_export_total",
    "C21.heavy_barline_lost",
    "C21.tick_barline_fails",
    "C21.invisible_repeat_lost",
    "C21.double_barline_at_repeat_lost"
   ],
   "note": "The round trip is proved for scores of any length whose boundaries need one MEI bar line. The full statement is false: heavy bar lines are read as regular, tick/short/heavy-heavy raise KeyError, a start repeat at an invisible bar line and a double bar line at a start repeat are lost. One staff; sections and endings flattened."
  },
  {
   "property": "C80",
   "status": "partial",
   "theorems": [
    "C21.linked_duration_round_trip",
    "C21.unlinked_duration_round_trip_partial",
    "C21.tuplet_duration_round_trip_partial",
    "C21.ftrem_duration_round_trip_partial",
    "C21.grace_round_trip",
    "C21.grace_stable",
    "C21.findType_findsTypes",
    "C21.complex_length_lost",
    "C21.tuplet_length_lost",
    "C21.duplex_maxima_lost",
    "C21.performed_type_read",
    "C21.performed_dots_read"
   ],
   "note": "Proved for all linked durations of MEI's types and for all performed lengths that are a type with at most four dots. False otherwise: a performed length of 5/2 or 1/3 and the duplex maxima are lost (witnesses). dur.ppq and <dot> elements are not modelled."
  },
  {
   "property": "C81",
   "status": "partial",
   "theorems": [
    "C21.pitch_round_trip_partial",
    "C21.accid_round_trip",
    "C21.ottava_round_trip",
    "C21.quadruple_sharp_lost",
    "C21.hidden_triple_sharp_lost"
   ],
   "note": "Proved for all octaves, ottavas and accidentals up to triple ones (double when hidden). False for quadruple accidentals and hidden triple ones (witnesses). Microtones in cents, unpitched notes and <accid> elements are not modelled."
  },
  {
   "property": "C82",
   "status": "partial",
   "theorems": [
    "C21.ftrem_marks_partial",
    "C21.btrem_marks_partial",
    "C21.btrem_wrong",
    "C21.eighth_btrem_wrong",
    "C21.dotted_ftrem_wrong"
   ],
   "note": "False: a tremolo on a single note with flags gets as many marks too many as the note has flags, and so does a tremolo between dotted notes with flags. Proved for single notes without flags and pairs without dots."
  },
  {
   "property": "C83",
   "status": "partial",
   "theorems": [
    "C21.sharps_round_trip",
    "C21.sig_readable",
    "C21.key_round_trip_partial",
    "C21.keySig_round_trip_partial",
    "C21.key_sharps_from_sig",
    "C21.meter_round_trip",
    "C21.clef_round_trip_partial",
    "C21.ten_sharps_read_as_one",
    "C21.thirteen_sharps_lost",
    "C21.cut_four_four_lost",
    "C21.clef_octave_lost"
   ],
   "note": "Sharps survive exactly up to nine (ten are read as one); numerators and denominators always; symbols exactly for cut 2/2 and common 4/4; clefs up to three octaves, except that percussion and tablature clefs lose line and octave."
  },
  {
   "property": "C84",
   "status": "partial",
   "theorems": [
    "C21.implied_alterations_partial",
    "C21.high_note_fails",
    "C21.low_note_wrong"
   ],
   "note": "Proved for notes from C0 to B9. False outside: octave 10 raises IndexError, and a note below C0 alters the highest octave (negative index)."
  },
  {
   "property": "C85",
   "status": "partial",
   "theorems": [
    "C21.layer_nested_partial",
    "C21.longer_of_durations",
    "C21.tremolo_readable_partial",
    "C21.nestsReasonably_iff",
    "C21.grace_nesting_wrong",
    "C21.beamed_tremolo_unreadable"
   ],
   "note": "Proved for any layer in which inner spanners are shorter (all objects have a duration). False with grace notes at the edge of a beam (elements closed in the wrong order), and a tremolo with a beam or tuplet over just its two notes cannot be read back. Spanners crossing the measure, staff changes and single-note tremolos are not modelled."
  },
  {
   "property": "C86",
   "status": "partial",
   "theorems": [
    "C21.layer_times_partial",
    "C21.layer_objects",
    "C21.layer_changes",
    "C21.change_written_once",
    "C21.clef_in_note_shifts",
    "C21.change_in_note_lost",
    "C21.sameas_clef_read_as_treble"
   ],
   "note": "Times proved for voices whose objects follow one another; exactly the changes at a boundary of the voice are written. False: a clef in the middle of a note shifts what follows, a change inside a note of every voice is lost, and the reference to a clef in the second layer is read as a treble clef."
  },
  {
   "property": "C87",
   "status": "partial",
   "theorems": [
    "C21.layerNumbers_partial",
    "C21.layerNumbers_free",
    "C21.layerNumbers_given",
    "C21.layer_numbers_clash"
   ],
   "note": "Increasing, hence distinct, whenever every given number is greater than those before it; 1, 2, 3, ... when none is given; a given number is always kept. False in general: a counted number may equal one that is given."
  },
  {
   "property": "C88",
   "status": "partial",
   "theorems": [
    "C21.section_round_trip_partial",
    "C21.breaks_kept",
    "C21.measure_stacks_partial",
    "C21.overlapping_endings_fail",
    "C21.crossing_endings_wrong",
    "C21.break_between_endings_lost",
    "C21.trailing_measures_lost"
   ],
   "note": "Proved for brackets that do not overlap and parts with equally many measures. False: overlapping brackets fail or are exchanged, a break between endings at the very beginning is lost, and measures that not all parts have are dropped."
  },
  {
   "property": "C89",
   "status": "partial",
   "theorems": [
    "C21.scoreDef_partial",
    "C21.group_attrs_round_trip",
    "C21.staff_never_defined",
    "C21.set_order_moves_staff"
   ],
   "note": "Proved for groups of consecutive staves (staves and groups exactly right; order right when sets are iterated in increasing order). False: a group with a gap leaves a staff without staffDef, and CPython's iteration order of sets such as {7,8,9,10} puts a staff behind a subgroup."
  },
  {
   "property": "C90",
   "status": "partial",
   "theorems": [
    "C21.mei_groups_read_partial",
    "C21.names_read_iff",
    "C21.scoreDef_round_trip_partial",
    "C21.group_moves_to_other_staves",
    "C21.empty_staffGrp_fails",
    "C21.piano_brace_moves"
   ],
   "note": "Holds exactly when in every staffGrp the staves come before the subgroups. False otherwise: a brace over staves 1 and 2 with a staff below is read as a brace over staves 2 and 3 and the part names are exchanged; an empty staffGrp makes the import fail. PartStaff and instruments are not modelled."
  },
  {
   "property": "C91",
   "status": "partial",
   "theorems": [
    "C21.ties_made_partial",
    "C21.ties_written_partial",
    "C21.ties_read_partial",
    "C21.ties_round_trip_partial",
    "C21.ties_same_partial",
    "C21.tie_to_wrong_note",
    "C21.tie_start_lost",
    "C21.hidden_tie_lost",
    "C21.open_tie_closed"
   ],
   "note": "Proved for parts in which a pitch never sounds twice at a time and voices do not take up a pitch before an earlier voice has it. False otherwise: a tie to another voice goes to a later note of the first voice; two ties that end at one note make the reader lose the tie that starts there; hidden ties are lost; a tie with no end is joined to any later note of its pitch in the next measure."
  },
  {
   "property": "C92",
   "status": "partial",
   "theorems": [
    "C21.beamElement_reads",
    "C21.beamElement_others",
    "C21.beamElement_right_iff",
    "C21.unbroken_right_iff",
    "C21.beams_written",
    "C21.beams_round_trip_partial",
    "C21.inner_beam_never_starts",
    "C21.uneven_break_lost",
    "C21.broken_first_note",
    "C21.beamSpan_not_read",
    "C21.beamSpan_lost"
   ],
   "note": "beamElement_right_iff says exactly which beam elements are read rightly. Proved for groups in which no beam begins at an inner note and no break leaves one note alone. False otherwise: in an eighth and two sixteenths the second beam never starts; a break between notes with different numbers of beams is not written; a break after the first note makes its beam start twice; beams over a bar line (beamSpan) are written and never read. Nested beam elements are in the model but the theorems are about elements with no other beam in them."
  },
  {
   "property": "C93",
   "status": "partial",
   "theorems": [
    "C21.tuplets_written",
    "C21.tuplet_look_iff",
    "C21.tuplet_numbers",
    "C21.tupletElement_reads",
    "C21.tuplets_read",
    "C21.tuplets_round_trip_partial",
    "C21.tupletSpan_read",
    "C21.bare_tuplets_not_read",
    "C21.nested_tuplets_exchanged",
    "C21.tuplet_broken_by_voice",
    "C21.untyped_tuplets_joined",
    "C21.tuplet_without_notes_lost",
    "C21.tupletSpan_look_leaks"
   ],
   "note": "Writing is proved for all nested tuplets, looks are characterised exactly. The round trip is proved for tuplets with none in them. False otherwise: the reader puts nested tuplets in the opposite order, so that when they are written again their notes are exchanged; tuplets over a bar line are broken by another voice; tuplets given by the attribute tuplet alone are never read; the look of a tupletSpan goes over to the next; a tuplet element with no note in it is dropped with what is in it. The theorems take the nesting of elements as given (C85)."
  },
  {
   "property": "C94",
   "status": "partial",
   "theorems": [
    "C21.spanner_ends_placed",
    "C21.spanner_end_round_trip_partial",
    "C21.spanner_end_object_round_trip_partial",
    "C21.end_object_error",
    "C21.end_after_last_measure_lost",
    "C21.matchTstamp2_text",
    "C21.end_on_barline_of_new_meter",
    "C21.end_after_new_meter",
    "C21.end_in_gap",
    "C21.skip_without_beat"
   ],
   "note": "The waiting ends are proved for all scores; the round trip under the same beat unit at both ends, measures without gaps and beats that six digits tell apart. False otherwise: the end is written in the beats of the meter at the end (even when it is on the barline before that meter) and read in those of the measure of the beginning; an end in a gap is written after the last measure and lost. Python's float() is a parameter with an error bound."
  },
  {
   "property": "C95",
   "status": "partial",
   "theorems": [
    "C21.hum_beams_round_trip_partial",
    "C21.one_note_chord_loses_beams",
    "C21.first_break_lost",
    "C21.break_before_rest_lost",
    "C21.hum_uneven_break_lost",
    "C21.inner_hook_to_the_right",
    "C21.beam_over_barline",
    "C21.beam_without_durations"
   ],
   "note": "Proved for every layer whose groups have two or more notes, whose hooks point right (left at the end of the group), and whose secondary breaks are of the kind Humdrum can say. False otherwise, with witnesses: one-note chords lose beams and slur ends; breaks after the first note, before a rest or between notes with different numbers of beams are lost; an inner hook always points right; a beam over the barline takes all beams of the layer away; a beam of tokens without a duration is put on other tokens. The number of beams per duration, tremolos and beams of grace notes are not modelled."
  },
  {
   "property": "C96",
   "status": "partial",
   "theorems": [
    "C21.hum_tuplets_found_partial",
    "C21.forced_tuplet_ends",
    "C21.tupbreak_ends",
    "C21.equal_tuplet_number",
    "C21.forced_tuplet_extent",
    "C21.hum_tuplet_numbers",
    "C21.ratio_change_splits",
    "C21.tupbreak_in_beam_ignored",
    "C21.one_note_tuplet_goes_on",
    "C21.second_ratio_change_missed",
    "C21.unbeamed_sextuplet_split",
    "C21.long_triplet_number"
   ],
   "note": "Proved for every layer whose tuplets have two or more notes shorter than a whole note and end with their beam, at a plain total duration, or before a plain note. False otherwise, with witnesses: a tuplet of one note never ends; the second change of ratio in a run is missed; a sextuplet without a beam becomes two triplets; a triplet of longs gets the numbers 3:8; a *tupbreak within a beam is ignored. Ends asked for by r and *tupbreak are separate theorems. Tremolos and the tuplet objects' normal durations are not modelled."
  },
  {
   "property": "C97",
   "status": "partial",
   "theorems": [
    "C21.articulations_round_trip_partial",
    "C21.note_articulations_round_trip_partial",
    "C21.articulations_in_stacking_order",
    "C21.hidden_articulation_left_out",
    "C21.accent_takes_placement",
    "C21.doubled_articulation_changes",
    "C21.unknown_articulation_moves_previous",
    "C21.articulation_order_lost",
    "C21.fermata_turned_over",
    "C21.hidden_note_loses_fermata",
    "C21.two_fermatas_become_one"
   ],
   "note": "Articulations: proved as a set with placements, in stacking order, for any token, unless a class is attached twice, an unplaced accent comes right before a strong accent, or a class without a sign has a placement (each false, with a witness). Fermatas: false for every visible note: an upright fermata is written with the sign for below and comes back inverted, and the other way round (proved for all tokens); a hidden note loses its fermata. Caesuras are written as a user signifier and not read back as articulations; fermatas on barlines and the articulations of chords' single notes are not modelled."
  },
  {
   "property": "C98",
   "status": "partial",
   "theorems": [
    "C21.time_signature_inserted_partial",
    "C21.no_time_signature_inserted",
    "C21.key_signature_inserted_partial",
    "C21.no_key_signature_inserted",
    "C21.one_staff_key_remembered",
    "C21.key_change_not_remembered",
    "C21.first_staff_keeps_old_key",
    "C21.wrong_staff_remembers_key",
    "C21.earlier_signature_lost",
    "C21.lone_key_name_lost",
    "C21.symbol_before_signature_lost"
   ],
   "note": "Insertion proved for every measure with at most one signature of a kind per staff; the last of several in a measure wins and the others are lost (witness), as are key names without a key signature and symbols before their signature. The remembered key is right in one-staff scores only: proved for all files that a key change in other staves than the one of the measure's last interpretation token is not remembered, so ornaments there are resolved in the old key. The collected objects are abstract functions of the token texts (see C50 and C100 for those)."
  },
  {
   "property": "C99",
   "status": "partial",
   "theorems": [
    "C21.kern_pitch_round_trip_partial",
    "C21.unpitched_position_round_trip",
    "C21.note_below_octave_zero_lost",
    "C21.microtone_becomes_natural"
   ],
   "note": "Proved for all octaves from 0 up and all whole-number alterations. False below octave 0: the exporter writes such notes and the importer drops every one of them (proved for all). A microtonal accidental is exported as a natural. How the display marks are read is C29."
  }
 ]
}
