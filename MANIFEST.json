{
 "claims": [
  {
   "property": "C01",
   "status": "proved",
   "theorems": [
    "Verif.C01_accepts_iff",
    "Verif.C01_encode_decode"
   ],
   "note": "Encoder accepts exactly the documented chords; decoding gives the chord back (type reduced, inversion 0 when unused)."
  },
  {
   "property": "C02",
   "status": "proved",
   "theorems": [
    "Verif.C02_labels",
    "Verif.C02_decode_encode",
    "Verif.C02_injective"
   ],
   "note": "Decode then encode is the identity on all valid indices, the decoder is injective, and label lists agree with the decoder."
  },
  {
   "property": "C03",
   "status": "proved",
   "theorems": [
    "Verif.C03_encode_decode",
    "Verif.C03_decode_encode",
    "Verif.C03_labels"
   ],
   "note": "Key index bijection and key labels."
  },
  {
   "property": "C04",
   "status": "proved",
   "theorems": [
    "Verif.C04_compose",
    "Verif.C04_midi_total",
    "Verif.C04_tpc_iff",
    "Verif.C04_inverse"
   ],
   "note": "Composition, inverses, exact range of the TPC error."
  },
  {
   "property": "C05",
   "status": "proved",
   "theorems": [
    "Verif.C05_tpc",
    "Verif.C05_midi",
    "Verif.C05_invariant",
    "Verif.C05_injective_tpc",
    "Verif.C05_in_vector_range"
   ],
   "note": "Differences, invariance under transposition, injectivity."
  },
  {
   "property": "C06",
   "status": "proved",
   "theorems": [
    "Verif.C06_round_trip",
    "Verif.C06_out_of_range",
    "Verif.C06_spelling"
   ],
   "note": "TPC spelling round trip for all 35 pitches, error outside."
  },
  {
   "property": "C07",
   "status": "proved",
   "theorems": [
    "Verif.C07_spelling",
    "Verif.C07_round_trip"
   ],
   "note": "MIDI spelling round trip including arbitrary accidentals."
  },
  {
   "property": "C08",
   "status": "proved",
   "theorems": [
    "Verif.C08_value",
    "Verif.C08_commutes",
    "Verif.C08_interval_add",
    "Verif.Conversion.C08_chord",
    "Verif.Conversion.C08_key"
   ],
   "note": "TPC to MIDI conversion value and commutation with transposition; chords and keys converted as a whole (C08_chord, C08_key)."
  },
  {
   "property": "C09",
   "status": "partial",
   "theorems": [
    "Verif.C09_white_keys_partial",
    "Verif.C09_fails"
   ],
   "note": "The claim is false for the five black keys (KeyError, C09_fails); C09_white_keys_partial proves it on the other seven."
  },
  {
   "property": "C10",
   "status": "proved",
   "theorems": [
    "Verif.C10_tpc",
    "Verif.C10_midi"
   ],
   "note": "Scale degree round trips for both pitch types."
  },
  {
   "property": "C11",
   "status": "proved",
   "theorems": [
    "Verif.C11_front",
    "Verif.C11_front_unique",
    "Verif.C11_behind"
   ],
   "note": "Accidentals in front and behind are all counted, for any number of them."
  },
  {
   "property": "C12",
   "status": "proved",
   "theorems": [
    "Verif.C12_split",
    "Verif.C12_concat"
   ],
   "note": "Grammar of pieces, concatenation, exact failure condition; str.isnumeric is an arbitrary predicate."
  },
  {
   "property": "C13",
   "status": "proved",
   "theorems": [
    "Verif.C13_compose",
    "Verif.C13_single",
    "Verif.C13_range",
    "Verif.C13_sum"
   ],
   "note": "Chain composition, single step, range and exact sum."
  },
  {
   "property": "C14",
   "status": "proved",
   "theorems": [
    "Verif.C14_tables",
    "Verif.C14_bass",
    "Verif.C14_bass_too_high",
    "Verif.C14_bass_modulo",
    "Verif.C14_bass_distinct",
    "Verif.C14_transpose_midi",
    "Verif.C14_transpose_tpc",
    "Verif.C14_transpose_length",
    "Verif.C14_vector_tpc",
    "Verif.C14_vector_midi",
    "Verif.C14_bass_in_vector"
   ],
   "note": "Bass notes, distinct inversions, exact chord vectors."
  },
  {
   "property": "C15",
   "status": "proved",
   "theorems": [
    "Verif.C15_keeps_best",
    "Verif.C15_top_state",
    "Verif.C15_size_zero"
   ],
   "note": "Every run of forced and unforced adds: the kept states are the best ones, top state is the maximum; size 0 raises IndexError on the first unforced add."
  },
  {
   "property": "C16",
   "status": "proved",
   "theorems": [
    "Verif.C16_beam",
    "Verif.C16_beam_effect",
    "Verif.C16_hashed"
   ],
   "note": "fits_in_beam predicts add for both kinds of beam in every reachable configuration."
  },
  {
   "property": "C17",
   "status": "proved",
   "theorems": [
    "Verif.C17_bookkeeping"
   ],
   "note": "Invariant over every run of a HashedBeam."
  },
  {
   "property": "C18",
   "status": "proved",
   "theorems": [
    "Verif.C18_top_state",
    "Verif.C18_best_of_hash"
   ],
   "note": "Top state is the best ever added; with unforced adds every kept state is the best added with its hash."
  },
  {
   "property": "C19",
   "status": "partial",
   "theorems": [
    "Verif.C19_beam_partial",
    "Verif.C19_hashed_fails"
   ],
   "note": "True for Beam (C19_beam_partial). False for HashedBeam (C19_hashed_fails): empty() replaces the dict by a list and the next add raises."
  },
  {
   "property": "C20",
   "status": "proved",
   "theorems": [
    "Verif.C20_tiles",
    "Verif.C20_chord_transition",
    "Verif.C20_key_transition",
    "Verif.C20_rejoin"
   ],
   "note": "Invariant over all reachable states, and the exact effect of each transition."
  },
  {
   "property": "C21",
   "status": "proved",
   "theorems": [
    "Verif.C21_runs"
   ],
   "note": "Keys are maximal runs of the per-chord keys for every reachable state."
  },
  {
   "property": "C22",
   "status": "proved",
   "theorems": [
    "Verif.C22_history",
    "Verif.C22_equal_iff"
   ],
   "note": "Hash entries and hash equality for every reachable state and hash length at least 1."
  },
  {
   "property": "C23",
   "status": "proved",
   "theorems": [
    "Verif.C23_rejoin",
    "Verif.C23_rejoin_effect",
    "Verif.C23_charged_twice"
   ],
   "note": "Full state equality with the direct transition, for charges made at most once; C23_charged_twice gives the exact leftover otherwise."
  },
  {
   "property": "C24",
   "status": "proved",
   "theorems": [
    "Verif.C24_chord_transition",
    "Verif.C24_chord_transition_error",
    "Verif.C24_key_transition",
    "Verif.C24_encodable",
    "Verif.C24_midi"
   ],
   "note": "Exact guard ranges, error branch, and existence of the relative chord index."
  },
  {
   "property": "C25",
   "status": "proved",
   "theorems": [
    "Verif.RangeInput.C25_sound"
   ],
   "note": "Every returned range, for every input with min_change <= max_no_change (asserted by the code)."
  },
  {
   "property": "C26",
   "status": "proved",
   "theorems": [
    "Verif.RangeInput.C26_exact",
    "Verif.RangeInput.C26_ordered",
    "Verif.RangeInput.C26_defined"
   ],
   "note": "Exactly the segments of the spec from reachable starts, in strictly increasing order; IndexError on an empty piece."
  },
  {
   "property": "C27",
   "status": "proved",
   "theorems": [
    "Verif.RangeInput.C27_value",
    "Verif.RangeInput.C27_merge"
   ],
   "note": "Value of each range as a sum, rejoin term, and additivity over adjacent ranges."
  },
  {
   "property": "C28",
   "status": "partial",
   "theorems": [
    "Verif.RangeInput.C28_max_length_partial",
    "Verif.RangeInput.C28_last_range_partial",
    "Verif.RangeInput.C28_not_excluded_partial",
    "Verif.RangeInput.C28_first_range_fails",
    "Verif.RangeInput.C28_last_range_fails"
   ],
   "note": "True away from the two ends of the piece. False at them: the first duration is counted twice (C28_first_range_fails) and the last note is never counted (C28_last_range_fails)."
  },
  {
   "property": "C29",
   "status": "proved",
   "theorems": [
    "Verif.RangeInput.C29_forced_change",
    "Verif.RangeInput.C29_forced_non_change",
    "Verif.RangeInput.C29_ignored_inside_onset"
   ],
   "note": "Forced changes at first notes of onsets are boundaries of every path, forced non-changes of none; C29_ignored_inside_onset shows why the restriction to valid positions is needed."
  },
  {
   "property": "C30",
   "status": "partial",
   "theorems": [
    "Verif.Forced.C30_accepts_partial",
    "Verif.Forced.C30_fails_at_zero",
    "Verif.Forced.C30_fails_key_label",
    "Verif.Forced.C30_fails_negative",
    "Verif.Forced.C30_fails_beyond_end"
   ],
   "note": "Exact acceptance condition and resulting arrays for all inputs with natural number indices; three extra conditions of the code are not in the claim (C30_fails_at_zero, C30_fails_key_label), and negative or too large label positions are accepted (C30_fails_negative, C30_fails_beyond_end)."
  },
  {
   "property": "C31",
   "status": "proved",
   "theorems": [
    "Verif.C31_distance",
    "Verif.C31_antisymmetric",
    "Verif.C31_additive",
    "Verif.C31_ends"
   ],
   "note": "Distances are those of a position function on any chain of linked rows of the table; both arguments may be in any order. C31_ends: the loop ends whenever all links go forward."
  },
  {
   "property": "C32",
   "status": "proved",
   "theorems": [
    "Verif.C32_nested",
    "Verif.C32_beat",
    "Verif.C32_levels",
    "Verif.C32_periodic"
   ],
   "note": "Lengths, levels and period for every n/d with n, d >= 1 and every rational position."
  },
  {
   "property": "C33",
   "status": "proved",
   "theorems": [
    "Verif.C33_offset"
   ],
   "note": "Any full chain of measures with positive durations, any onset inside of a measure, any duration >= 0."
  },
  {
   "property": "C34",
   "status": "partial",
   "theorems": [
    "Verif.C34_rows_partial",
    "Verif.C34_tiles_partial",
    "Verif.C34_fails_single_file"
   ],
   "note": "Proved when the first and the last chord of the table are of different files (C34_rows_partial, C34_tiles_partial). For a table with a single file the property is false for every input: C34_fails_single_file."
  },
  {
   "property": "C35",
   "status": "proved",
   "theorems": [
    "Verif.Piece.C35_cache"
   ],
   "note": "Signed distances on any chain; all partial sums, including the end of the piece."
  },
  {
   "property": "C36",
   "status": "proved",
   "theorems": [
    "Verif.Piece.C36_change",
    "Verif.Piece.C36_first"
   ],
   "note": "Change index = min(number of notes which begin before the chord, last index), for sorted lists."
  },
  {
   "property": "C37",
   "status": "partial",
   "theorems": [
    "Verif.Eval.C37_chords_partial",
    "Verif.Eval.C37_keys_partial",
    "Verif.Eval.C37_jointly_partial",
    "Verif.Eval.C37_coarser_chords",
    "Verif.Eval.C37_coarser_keys",
    "Verif.Eval.C37_joint_ge",
    "Verif.Eval.C37_joint_le",
    "Verif.Eval.C37_range",
    "Verif.Eval.C37_search_estimates",
    "Verif.Eval.C37_before_first_chord"
   ],
   "note": "Exact duration-weighted shares, bounds, value 1 iff all sounding inputs match, joint below both, coarsening monotone. Chords must begin at the first input: earlier inputs are compared with class 0 (C37_before_first_chord). C37_search_estimates shows the conditions on the estimate hold for every state of the search that covers the piece."
  },
  {
   "property": "C38",
   "status": "proved",
   "theorems": [
    "Verif.Eval.C38_read_back"
   ],
   "note": "Positions must increase after an input of nonzero duration. Rows of keys and chords are told apart by their last character."
  },
  {
   "property": "C39",
   "status": "proved",
   "theorems": [
    "Verif.Vectors.C39_commutes",
    "Verif.Vectors.C39_index_error",
    "Verif.Vectors.C39_third_inversion"
   ],
   "note": "Elementwise for any list of indices; a ValueError exactly if some reduced chord cannot be encoded (C39_third_inversion), an IndexError for an index out of range."
  },
  {
   "property": "C40",
   "status": "partial",
   "theorems": [
    "Verif.Vectors.C40_reduced_partial",
    "Verif.Vectors.C40_wiped",
    "Verif.Vectors.C40_none"
   ],
   "note": "Holds for chord types that the reduction changes. The other types lose their bit and cannot be decoded (C40_wiped), so NO_REDUCTION clears all chord types."
  },
  {
   "property": "C41",
   "status": "proved",
   "theorems": [
    "Verif.Vectors.C41_round_trip",
    "Verif.Vectors.C41_exists",
    "Verif.Vectors.C41_infer"
   ],
   "note": "Entries are rationals; inversions and levels 0 to 3."
  },
  {
   "property": "C42",
   "status": "proved",
   "theorems": [
    "Verif.KeyChange.C42_one_hot",
    "Verif.KeyChange.C42_below_length",
    "Verif.KeyChange.C42_injective",
    "Verif.KeyChange.C42_surjective",
    "Verif.KeyChange.C42_vector",
    "Verif.KeyChange.C42_decode",
    "Verif.KeyChange.C42_out_of_range"
   ],
   "note": "The mode is decoded as an array with one element. C42_out_of_range: TPC intervals beyond 14 fifths get no tonic bit and decode to 15 or 16 fifths."
  },
  {
   "property": "C43",
   "status": "proved",
   "theorems": [
    "Verif.Datasets.C43_padded",
    "Verif.Datasets.C43_item"
   ],
   "note": "Rows are of an abstract type with a zero; rounding to float16 is outside the model."
  },
  {
   "property": "C44",
   "status": "proved",
   "theorems": [
    "Verif.Datasets.C44_transpositions",
    "Verif.Datasets.C44_key_items",
    "Verif.Datasets.C44_key_unique",
    "Verif.Datasets.C44_key_beyond",
    "Verif.Datasets.C44_key_negative"
   ],
   "note": "Also: numbers beyond the end are a ValueError; negative numbers belong to the first piece (C44_key_negative)."
  },
  {
   "property": "C45",
   "status": "proved",
   "theorems": [
    "Verif.Datasets.C45_partition",
    "Verif.Datasets.C45_disjoint"
   ],
   "note": "Proportions are non-negative rationals with a non-zero sum (the code normalises them); the shuffle is any permutation. Parts differ by at most one from their share."
  },
  {
   "property": "C46",
   "status": "proved",
   "theorems": [
    "Verif.InitialChord.C46_distribution",
    "Verif.InitialChord.C46_ok"
   ],
   "note": "Counts and probabilities are rationals."
  },
  {
   "property": "C47",
   "status": "partial",
   "theorems": [
    "Verif.SearchData.C47_target",
    "Verif.SearchData.C47_initial",
    "Verif.SearchData.C47_tiles",
    "Verif.SearchData.C47_segments",
    "Verif.SearchData.C47_keys",
    "Verif.SearchData.C47_forced_partial",
    "Verif.SearchData.C47_forced_some",
    "Verif.SearchData.C47_forced_chord_fails",
    "Verif.SearchData.C47_forced_key_fails"
   ],
   "note": "Tiling, ranges, keys and differing neighbours are proved in full, for both beam classes and for arbitrary arithmetic. Forced labels are honoured at the first note only if the first range (for chords) or the segment (for keys) has no second forced label; otherwise this is false (C47_forced_chord_fails, C47_forced_key_fails). C47_forced_some says what holds then."
  },
  {
   "property": "C48",
   "status": "partial",
   "theorems": [
    "Verif.SearchData.C48_one_partial",
    "Verif.SearchData.C48_both_fails",
    "Verif.SearchData.C48_fails"
   ],
   "note": "False where both branches are allowed, which is the case the property is about: the changing state is charged both costs, the keeping state none (C48_both_fails, C48_fails). Holds where only one is allowed."
  },
  {
   "property": "C49",
   "status": "proved",
   "theorems": [
    "Verif.C49_key_object",
    "Verif.C49_key_object_exists"
   ],
   "note": "Cached key objects are always those of the labels."
  },
  {
   "property": "C50",
   "status": "proved",
   "theorems": [
    "Verif.RangeInput.C50_complete_path",
    "Verif.RangeInput.C50_dead_end"
   ],
   "note": "Existence of a complete path from every start; C50_dead_end shows the assumption on forced labels is needed."
  },
  {
   "property": "C51",
   "status": "proved",
   "theorems": [
    "Verif.C51_first_note",
    "Verif.C51_no_note",
    "Verif.C51_all"
   ],
   "note": "The bisection is modelled as in CPython; exact result and exact exceptions."
  },
  {
   "property": "C52",
   "status": "proved",
   "theorems": [
    "Verif.C52_proportion",
    "Verif.C52_empty_range"
   ],
   "note": "Both counting directions, with and without a given length; empty range raises."
  },
  {
   "property": "C53",
   "status": "partial",
   "theorems": [
    "Verif.Repeats.C53_next_partial",
    "Verif.Repeats.C53_reachable_partial",
    "Verif.Repeats.C53_chain_partial",
    "Verif.Repeats.C53_fails_single_file"
   ],
   "note": "Proved for tables whose first and last row are of different files. For a single file everything is removed: C53_fails_single_file."
  },
  {
   "property": "C54",
   "status": "partial",
   "theorems": [
    "Verif.Piece.C54_within_partial",
    "Verif.Piece.C54_fails_before_first"
   ],
   "note": "Proved if the first chord begins at or before start. Otherwise start_index is -1 and the slice counts from the end: C54_fails_before_first."
  },
  {
   "property": "C55",
   "status": "proved",
   "theorems": [
    "Verif.Piece.C55_start",
    "Verif.Piece.C55_ranges"
   ],
   "note": ""
  },
  {
   "property": "C56",
   "status": "proved",
   "theorems": [
    "Verif.Piece.C56_note_onset",
    "Verif.Piece.C56_window"
   ],
   "note": "The vectors of the notes are arbitrary."
  },
  {
   "property": "C57",
   "status": "proved",
   "theorems": [
    "Verif.Piece.C57_merge"
   ],
   "note": "Durations in any commutative monoid."
  },
  {
   "property": "C58",
   "status": "proved",
   "theorems": [
    "Verif.C58_copy",
    "Verif.C58_copy_after_transition",
    "Verif.C58_copy_after_rejoin",
    "Verif.C58_copy_fails_charged",
    "Verif.C58_chord_transition_hidden",
    "Verif.C58_key_transition_hidden"
   ],
   "note": "copy forgets recorded model costs; C58_copy_fails_charged shows the effect on a later rejoin. In the search copies are only made of states without recorded costs, where the copy is equal to the original."
  },
  {
   "property": "C59",
   "status": "proved",
   "theorems": [
    "Verif.Eval.C59_chord_text",
    "Verif.Eval.C59_key_text"
   ],
   "note": "Non-negative class indices (negative ones count from the end)."
  },
  {
   "property": "C60",
   "status": "proved",
   "theorems": [
    "Verif.Vectors.C60_root_position"
   ],
   "note": "Pitch type given, or inferred from rows without further entries."
  },
  {
   "property": "C61",
   "status": "partial",
   "theorems": [
    "Verif.Vectors.C61_inference_fails",
    "Verif.Vectors.C61_datasets",
    "Verif.Vectors.C61_given_partial"
   ],
   "note": "With the pitch type given both functions act on the chord part. The datasets do not pass it, and the inference fails on every dataset row (C61_inference_fails, C61_datasets)."
  },
  {
   "property": "C62",
   "status": "proved",
   "theorems": [
    "Verif.KeyChange.C62_round_trip",
    "Verif.KeyChange.C62_rejects"
   ],
   "note": "Intervals of key changes in range (see C42_out_of_range for the others)."
  },
  {
   "property": "C63",
   "status": "partial",
   "theorems": [
    "Verif.NoteVectors.C63_tpc_partial",
    "Verif.NoteVectors.C63_midi"
   ],
   "note": "TPC pitches. For MIDI pitches the octaves are 35 apart (C63_midi)."
  },
  {
   "property": "C64",
   "status": "partial",
   "theorems": [
    "Verif.NoteVectors.C64_transposed_partial",
    "Verif.NoteVectors.C64_out_of_range"
   ],
   "note": "Intervals that stay in range. Other intervals clear the pitch and set another entry, as the range check tests the old pitch (C64_out_of_range)."
  },
  {
   "property": "C65",
   "status": "partial",
   "theorems": [
    "Verif.NoteVectors.C65_layout_partial",
    "Verif.NoteVectors.C65_context",
    "Verif.NoteVectors.C65_decoder"
   ],
   "note": "Length and layout. The decoder unpacks three entries into five names and fails for every vector (C65_decoder)."
  },
  {
   "property": "C66",
   "status": "partial",
   "theorems": [
    "Verif.Datasets.C66_round_trip_partial",
    "Verif.Datasets.C66_key_data",
    "Verif.Datasets.C66_first_piece"
   ],
   "note": "Datasets that record the lengths of their padded arrays. The key datasets keep one length for each key change, and the array of piece i is cut to the length of item i (C66_key_data, C66_first_piece)."
  },
  {
   "property": "C67",
   "status": "partial",
   "theorems": [
    "Verif.KeyDatasets.C67_item_partial",
    "Verif.KeyDatasets.C67_sequence_index_error",
    "Verif.KeyDatasets.C67_overwritten"
   ],
   "note": "Pieces shorter than the longest one. In a KeySequenceDataset the last item of the longest piece is an IndexError (C67_sequence_index_error); in a KeyTransitionDataset the longest piece is overwritten by reading (C67_overwritten). Reductions applied afterwards are C40, C60 and C61."
  },
  {
   "property": "C68",
   "status": "proved",
   "theorems": [
    "Verif.KeyDatasets.C68_transitions",
    "Verif.KeyDatasets.C68_sequences"
   ],
   "note": "Pieces with one change index for each key, starting at chord 0 and increasing."
  },
  {
   "property": "C69",
   "status": "partial",
   "theorems": [
    "Verif.InitialChord.C69_default_partial",
    "Verif.InitialChord.C69_reduced"
   ],
   "note": "Only the case with inversions and without a reduction, where nothing is summed. In all other cases the constructor raises a TypeError, since it passes the list of labels to np.zeros (C69_reduced)."
  },
  {
   "property": "C70",
   "status": "proved",
   "theorems": [
    "Verif.InitialChord.C70_majority"
   ],
   "note": "The logarithm is any strictly increasing function on positive numbers. The mode of the first key is the mode of the key of the first chord."
  },
  {
   "property": "C71",
   "status": "partial",
   "theorems": [
    "Verif.SearchData.C71_least_partial",
    "Verif.SearchData.C71_bounds",
    "Verif.SearchData.C71_unreached_fails",
    "Verif.SearchData.C71_keys",
    "Verif.SearchData.C71_chords"
   ],
   "note": "If the target is not reached by all classes together, only one class is branched on (C71_unreached_fails)."
  },
  {
   "property": "C72",
   "status": "partial",
   "theorems": [
    "Verif.SearchData.C72_full_partial",
    "Verif.SearchData.C72_room_fails",
    "Verif.SearchData.C72_rejoin_fails"
   ],
   "note": "Only for full beams and states with a new chord; otherwise false (C72_room_fails, C72_rejoin_fails)."
  },
  {
   "property": "C73",
   "status": "partial",
   "theorems": [
    "Verif.SearchData.C73_plain_partial",
    "Verif.SearchData.C73_hashed_partial",
    "Verif.SearchData.C73_rejoin_fails"
   ],
   "note": "Only if the state that does not fit has a new chord; otherwise false (C73_rejoin_fails)."
  },
  {
   "property": "C74",
   "status": "proved",
   "theorems": [
    "Verif.Results.C74_rows",
    "Verif.Results.C74_equal",
    "Verif.Results.C74_accuracy",
    "Verif.Results.C74_midi_coarser"
   ],
   "note": "Conversions from MIDI to TPC pitches are excluded: they do not exist (C08)."
  },
  {
   "property": "C75",
   "status": "partial",
   "theorems": [
    "Verif.LabelTable.C75_table_partial",
    "Verif.LabelTable.C75_ambiguous",
    "Verif.LabelTable.C75_before_first_chord",
    "Verif.LabelTable.C75_unannotated",
    "Verif.LabelTable.C75_no_chords"
   ],
   "note": "The rows say the right thing if their kinds are known and the chords of the piece begin at the first input. The table itself does not tell the kinds: `C75_ambiguous`. Before the first chord the estimate is compared with the last class: `C75_before_first_chord`. Pieces without annotations raise: `C75_unannotated`, `C75_no_chords`."
  },
  {
   "property": "C76",
   "status": "partial",
   "theorems": [
    "Verif.Changes.C76_added_unique",
    "Verif.Changes.C76_mapping_partial",
    "Verif.Changes.C76_lost",
    "Verif.Changes.C76_fails_additions",
    "Verif.Changes.C76_fails_plus",
    "Verif.Changes.C76_fails_range"
   ],
   "note": "Proved if all changes replace different tones, at most one is an addition, and + is only on the last one. Otherwise entries are lost (`C76_lost`, `C76_fails_additions`) or assigned to the wrong change (`C76_fails_plus`). Chords with a tone out of range: `C76_fails_range`."
  },
  {
   "property": "C77",
   "status": "proved",
   "theorems": [
    "Verif.FullLabels.C77_rows",
    "Verif.FullLabels.C77_changes"
   ],
   "note": "Entries of change strings under the conditions of C76 (`C77_changes`)."
  },
  {
   "property": "C78",
   "status": "proved",
   "theorems": [
    "Verif.FromSeries.C78_key",
    "Verif.FromSeries.C78_key_midi",
    "Verif.FromSeries.C78_chord",
    "Verif.FromSeries.C78_table",
    "Verif.FromSeries.C78_pitches",
    "Verif.FromSeries.C78_chord_midi",
    "Verif.FromSeries.C78_figures"
   ],
   "note": "`C78_key` and `C78_chord` are equivalences: the result is given exactly when there is one. The meaning of numeral chains is C13, of tones C14, of levels C32."
  },
  {
   "property": "C79",
   "status": "partial",
   "theorems": [
    "Verif.PieceKeys.C79_keys",
    "Verif.PieceKeys.C79_piece_partial",
    "Verif.PieceKeys.C79_fails_one",
    "Verif.PieceKeys.C79_fails_pivot",
    "Verif.PieceKeys.C79_chords"
   ],
   "note": "Proved unless exactly one chord can be read: then np.squeeze gives a scalar and the function raises a TypeError (`C79_fails_one`). A key that is annotated only at a chord that repeats the one before is lost (`C79_fails_pivot`)."
  },
  {
   "property": "C80",
   "status": "partial",
   "theorems": [
    "Verif.MusicXml.C80_measures_partial",
    "Verif.MusicXml.C80_fails_one",
    "Verif.MusicXml.C80_lengths",
    "Verif.MusicXml.C80_pickup",
    "Verif.MusicXml.C80_chain",
    "Verif.MusicXml.C80_position"
   ],
   "note": "Proved for scores of at least two measures. A score of one measure raises an IndexError (`C80_fails_one`)."
  },
  {
   "property": "C81",
   "status": "proved",
   "theorems": [
    "Verif.MusicXml.C81_label",
    "Verif.MusicXml.C81_before"
   ],
   "note": "The hypotheses on the rows are what C80 proves of every table."
  },
  {
   "property": "C82",
   "status": "partial",
   "theorems": [
    "Verif.MusicXml.C82_position",
    "Verif.MusicXml.C82_note_partial",
    "Verif.MusicXml.C82_fails_pickup"
   ],
   "note": "The onset is proved for all notes. For the offset `C82_position` gives the exact error (metrical offset of the last measure minus that of the first); `C82_note_partial` proves the claim if all measures begin on downbeats, `C82_fails_pickup` shows the failure for a pickup."
  },
  {
   "property": "C83",
   "status": "partial",
   "theorems": [
    "Verif.LabelsCsv.C83_degree",
    "Verif.LabelsCsv.C83_key",
    "Verif.LabelsCsv.C83_relative",
    "Verif.LabelsCsv.C83_chord",
    "Verif.LabelsCsv.C83_bass_partial",
    "Verif.LabelsCsv.C83_fails_inversion",
    "Verif.LabelsCsv.C83_fails_reduction",
    "Verif.LabelsCsv.C83_midi"
   ],
   "note": "Keys, degrees, chords and conversion are proved. The bass agrees with type and inversion only without a reduction and with inversions (`C83_bass_partial`): otherwise the bass is that of the label but the inversion is 0 (`C83_fails_inversion`) or does not exist in the reduced type (`C83_fails_reduction`)."
  },
  {
   "property": "C84",
   "status": "proved",
   "theorems": [
    "Verif.XmlPieces.C84_labels",
    "Verif.XmlPieces.C84_made",
    "Verif.XmlPieces.C84_keys",
    "Verif.XmlPieces.C84_order",
    "Verif.XmlPieces.C84_changes"
   ],
   "note": "`C84_changes` assumes labels and notes in order; C85 proves it of the notes. One label that cannot be read makes the whole piece fail (`C84_made`), other than in `get_score_piece_from_data_frames`."
  },
  {
   "property": "C85",
   "status": "partial",
   "theorems": [
    "Verif.XmlPieces.C85_notes_partial",
    "Verif.XmlPieces.C85_sorted",
    "Verif.XmlPieces.C85_fails_number"
   ],
   "note": "Proved if the measures in the table have different numbers (`C85_notes_partial`). With equal numbers, as in a divided measure, the notes of both are put into the first one (`C85_fails_number`)."
  },
  {
   "property": "C86",
   "status": "partial",
   "theorems": [
    "Verif.ClassData.C86_item_partial",
    "Verif.ClassData.C86_root_out",
    "Verif.ClassData.C86_bass_out",
    "Verif.ClassData.C86_midi_fails",
    "Verif.ClassData.C86_notes_fail",
    "Verif.ClassData.C86_unreduced"
   ],
   "note": "Proved if root, bass and notes stay in range (`C86_item_partial`); roots and basses out of range are marked (`C86_root_out`, `C86_bass_out`). MIDI roots are not taken modulo 12 (`C86_midi_fails`); notes out of range lose their pitch while the data point is used (`C86_notes_fail`). A chord without a class after the reduction raises outside of the `try` (`C86_unreduced`)."
  },
  {
   "property": "C87",
   "status": "partial",
   "theorems": [
    "Verif.PitchBased.C87_row_partial",
    "Verif.PitchBased.C87_high_fails",
    "Verif.PitchBased.C87_rows",
    "Verif.PitchBased.C87_prior_midi",
    "Verif.PitchBased.C87_prior_tpc_fails",
    "Verif.PitchBased.C87_left_out",
    "Verif.PitchBased.C87_training_fails"
   ],
   "note": "`C87_row_partial` for chords within the range, `C87_rows` for the rest of the table, `C87_prior_midi` for the prior with MIDI pitches. Spelled chords with high pitches raise (`C87_high_fails`), low pitches are lost silently (example), the prior of spelled chords is read 14 places too low (`C87_prior_tpc_fails`), and rows with the first pitch, for MIDI all chords with the tonic, are left out of training (`C87_training_fails`)."
  },
  {
   "property": "C88",
   "status": "proved",
   "theorems": [
    "Verif.StateInputs.C88_csm",
    "Verif.StateInputs.C88_ktm",
    "Verif.StateInputs.C88_ksm",
    "Verif.StateInputs.C88_notes",
    "Verif.StateInputs.C88_decoded"
   ],
   "note": "`C88_csm`, `C88_ktm`, `C88_ksm` for all reached states; `C88_decoded` if key changes are within 14 fifths (spelled pitches)."
  },
  {
   "property": "C89",
   "status": "proved",
   "theorems": [
    "Verif.Hidden.C89_ktm",
    "Verif.Hidden.C89_csm",
    "Verif.Hidden.C89_ksm",
    "Verif.Hidden.C89_costs"
   ],
   "note": "`C89_ktm`, `C89_csm`, `C89_ksm`, `C89_costs`. A forward pass over a sequence is taken to be the iteration of one step (true of LSTMs)."
  },
  {
   "property": "C90",
   "status": "partial",
   "theorems": [
    "Verif.Inference.C90_ksm",
    "Verif.Inference.C90_ktm",
    "Verif.Inference.C90_csm",
    "Verif.Inference.C90_reduction_partial",
    "Verif.Inference.C90_reduction_fails",
    "Verif.Inference.C90_training"
   ],
   "note": "Batches: `C90_ksm`, `C90_ktm`, `C90_csm` in full. Reductions: equal to those of training for models without any (`C90_reduction_partial`); for others the settings are lost (`C90_reduction_fails`), while training raises (`C90_training`)."
  },
  {
   "property": "C91",
   "status": "partial",
   "theorems": [
    "Verif.Notes.C91_row",
    "Verif.Notes.C91_piece_partial",
    "Verif.Notes.C91_number",
    "Verif.Notes.C91_xml",
    "Verif.Notes.C91_fails_xml",
    "Verif.Notes.C91_fails_loaders",
    "Verif.Notes.C91_convert",
    "Verif.Notes.C91_fails_one"
   ],
   "note": "Tables: `C91_row` (an equivalence), `C91_number`; `C91_piece_partial` for pieces that do not have exactly one note (`C91_fails_one`). MusicXML: pitch classes are right (`C91_xml`), octaves and numbers are not (`C91_fails_xml`, `C91_fails_loaders`)."
  },
  {
   "property": "C92",
   "status": "partial",
   "theorems": [
    "Verif.LoadPieces.C92_dict_partial",
    "Verif.LoadPieces.C92_fails_unannotated",
    "Verif.LoadPieces.C92_split",
    "Verif.LoadPieces.C92_tables",
    "Verif.LoadPieces.C92_fails_missing",
    "Verif.LoadPieces.C92_file",
    "Verif.LoadPieces.C92_scores_partial",
    "Verif.LoadPieces.C92_fails_shift",
    "Verif.LoadPieces.C92_fails_unlabelled",
    "Verif.LoadPieces.C92_fails_ids"
   ],
   "note": "Tables: `C92_split`, `C92_tables` in full. Dictionaries: `C92_dict_partial` for annotated pieces (others raise: `C92_fails_unannotated`). A missing file raises (`C92_fails_missing`). Scores: `C92_scores_partial` for fully labelled directories, `C92_file`; otherwise `C92_fails_shift`, `C92_fails_unlabelled`, `C92_fails_ids`."
  },
  {
   "property": "C93",
   "status": "partial",
   "theorems": [
    "Verif.ChordInputs.C93_chord",
    "Verif.ChordInputs.C93_found",
    "Verif.ChordInputs.C93_given",
    "Verif.ChordInputs.C93_labels_partial",
    "Verif.ChordInputs.C93_fails_zero"
   ],
   "note": "`C93_given` for given ranges in full; `C93_labels_partial` for the labels of a piece if no chord has duration 0 (`C93_fails_zero`). `C93_chord` and `C93_found` are the statements for one chord. Entries are exact fractions, without rounding to 16 bits."
  },
  {
   "property": "C94",
   "status": "proved",
   "theorems": [
    "Verif.MergeTies.C94_merge",
    "Verif.MergeTies.C94_index",
    "Verif.MergeTies.C94_duration"
   ],
   "note": "Simulation of the frames by steps on chains of notes (`Lemmas/MergeTies.lean`); the loop ends since every round uses up a note. Offset columns not null."
  },
  {
   "property": "C95",
   "status": "partial",
   "theorems": [
    "Verif.MergeTies.C95_tied_partial",
    "Verif.MergeTies.C95_no_match_left",
    "Verif.MergeTies.C95_no_match_left_both",
    "Verif.MergeTies.C95_fails"
   ],
   "note": "`C95_tied_partial`: as documented for chains that start with 1 or -1; a chain that starts with 0 can go on after a -1, and with a second -1 it has no tie (`C95_fails`). `C95_no_match_left` and `C95_no_match_left_both` are in full."
  },
  {
   "property": "C96",
   "status": "proved",
   "theorems": [
    "Verif.TiedScores.C96_score",
    "Verif.TiedScores.C96_untied"
   ],
   "note": "Invariant of the steps on chains: all chains begin with tied 1 and stay in one staff and voice, so the next note of every open chain is still a tied in note; hence rows matched once agree in staff and voice and nothing is forced. Notes end after they start."
  },
  {
   "property": "C97",
   "status": "partial",
   "theorems": [
    "Verif.CorpusReading.C97_notes_partial",
    "Verif.CorpusReading.C97_total_partial",
    "Verif.CorpusReading.C97_tables_partial",
    "Verif.CorpusReading.C97_fails_single_file",
    "Verif.CorpusReading.C97_fails_no_chords"
   ],
   "note": "Needs two files: with a single file, in particular count=1, the loading ends with an IndexError (C97_fails_single_file); with a count and a file without chords before it, with a KeyError (C97_fails_no_chords)."
  },
  {
   "property": "C98",
   "status": "partial",
   "theorems": [
    "Verif.CorpusReading.C98_chords_partial",
    "Verif.CorpusReading.C98_fails_single_file"
   ],
   "note": "If only one file has valid chords, its last chord has no duration (C98_fails_single_file)."
  },
  {
   "property": "C99",
   "status": "proved",
   "theorems": [
    "Verif.Aggregate.C99_tables",
    "Verif.Aggregate.C99_index"
   ],
   "note": "Invariant of the loop: lists of numbers and tables are the two columns of one list. C99_index shows that the tables are ordered as the loading needs."
  },
  {
   "property": "C100",
   "status": "partial",
   "theorems": [
    "Verif.Joint.C100_onsets",
    "Verif.Joint.C100_non_change",
    "Verif.Joint.C100_change_partial",
    "Verif.Joint.C100_chords_partial",
    "Verif.Joint.C100_change_fails",
    "Verif.Joint.C100_chords_fails"
   ],
   "note": "Tiling, onsets and forced non-changes are proved in full. A forced change is missing only in a result whose log probability is minus infinity or NaN (such a result exists: C100_change_fails). Forced chords need labels of whole onsets and a last onset whose label is no other than the one before, unless a change is forced there (C100_chords_fails)."
  },
  {
   "property": "C101",
   "status": "partial",
   "theorems": [
    "Verif.Joint.C101_keys_partial",
    "Verif.Joint.C101_ignored",
    "Verif.Joint.C101_fails"
   ],
   "note": "Proved for chords whose notes have no two different forced keys. Forced key changes and non-changes are validated but never used (C101_ignored); a result with one key in spite of a forced change and different forced keys is given (C101_fails)."
  },
  {
   "property": "C102",
   "status": "proved",
   "theorems": [
    "Verif.ForceLabels.C102_changes"
   ],
   "note": "Regular expressions are modelled as lists of all matches in the order of backtracking. Labels that hold several commands are outside of the statement: =C=K is read as both, =K=C raises KeyError as the key K=C is found in it (example)."
  },
  {
   "property": "C103",
   "status": "partial",
   "theorems": [
    "Verif.ForceLabels.C103_chords_partial",
    "Verif.ForceLabels.C103_extracted_iff",
    "Verif.ForceLabels.C103_fails"
   ],
   "note": "Forces are extracted exactly if all chords are triads or half-diminished seventh chords with a written inversion (C103_extracted_iff); then the chords are right. Any chord without an inversion and any other seventh chord makes the function raise, so no forces at all are returned (C103_fails)."
  },
  {
   "property": "C104",
   "status": "proved",
   "theorems": [
    "Verif.ForceLabels.C104_keys"
   ],
   "note": ""
  },
  {
   "property": "C105",
   "status": "proved",
   "theorems": [
    "Verif.PyStrings.C105_tuple",
    "Verif.PyStrings.C105_tuple_bad",
    "Verif.PyStrings.C105_bool",
    "Verif.PyStrings.C105_fraction",
    "Verif.PyStrings.C105_decimal",
    "Verif.PyStrings.C105_empty",
    "Verif.PyStrings.C105_zero_denominator",
    "Verif.PyStrings.C105_integer"
   ],
   "note": "Python's int of strings is modelled on ASCII strings (C105_integer), Fraction on ASCII strings without underscores and exponents."
  },
  {
   "property": "C106",
   "status": "proved",
   "theorems": [
    "Verif.ForcesJson.C106_pieces",
    "Verif.ForcesJson.C106_default"
   ],
   "note": "Sets are lists of which only the members matter. A missing bracket is not noticed: the range (0,16 without the closing bracket is read as (0, 1) (example)."
  },
  {
   "property": "C107",
   "status": "partial",
   "theorems": [
    "Verif.ForcesJson.C107_named_partial",
    "Verif.ForcesJson.C107_default",
    "Verif.ForcesJson.C107_fails"
   ],
   "note": "Holds if exactly one key (C107_named_partial) or none (C107_default) is a part of the name. If several keys are a part of the name, any of their forces may be used, depending on the order of the set (C107_fails)."
  },
  {
   "property": "C108",
   "status": "partial",
   "theorems": [
    "Verif.Output.C108_evaluate_partial",
    "Verif.Output.C108_evaluate_fails",
    "Verif.Output.C108_annotate_partial",
    "Verif.Output.C108_annotate_fails"
   ],
   "note": "evaluate: for paths without spaces, if no piece is called as the results of another one (C108_evaluate_partial). Paths with spaces count from the last space on (C108_evaluate_fails). annotate: only for distinct file names (C108_annotate_partial); folders are dropped, so of two pieces with the same file name only the last one is kept (C108_annotate_fails). Errors of the operating system are not modelled."
  },
  {
   "property": "C109",
   "status": "partial",
   "theorems": [
    "Verif.Kwargs.C109_partial",
    "Verif.Kwargs.C109_none",
    "Verif.Kwargs.C109_fails"
   ],
   "note": "Holds for pitch types, reductions and all other fields (C109_partial, C109_none). Piece types are looked up among the pitch types: SCORE and AUDIO raise KeyError, MIDI is loaded as PitchType.MIDI (C109_fails)."
  },
  {
   "property": "C110",
   "status": "partial",
   "theorems": [
    "Verif.ModelEval.C110_ctm_partial",
    "Verif.ModelEval.C110_ktm_csm_partial",
    "Verif.ModelEval.C110_empty_batch_fails",
    "Verif.ModelEval.C110_ccm_partial",
    "Verif.ModelEval.C110_ccm_fails",
    "Verif.ModelEval.C110_ksm_partial",
    "Verif.ModelEval.C110_ksm_fails"
   ],
   "note": "CTM, KTM and CSM: if each batch has a position to measure (C110_ctm_partial, C110_ktm_csm_partial); otherwise the result is NaN (C110_empty_batch_fails). CCM: if no target is out of range (C110_ccm_partial), otherwise it raises (C110_ccm_fails). KSM: if the batch size divides the number of data points (C110_ksm_partial); otherwise the last batch counts too much (C110_ksm_fails). Outputs of a data point do not depend on its batch; floating point is exact. The pitch-based sequence model is not included (see Disagreements)."
  },
  {
   "property": "C111",
   "status": "proved",
   "theorems": [
    "Verif.ModelEval.C111_targets"
   ],
   "note": ""
  },
  {
   "property": "C112",
   "status": "proved",
   "theorems": [
    "Verif.ModelEval.C112_targets",
    "Verif.ModelEval.C112_positions"
   ],
   "note": "C112_positions composes it with the duration cache (C35). A chord change at a note that begins together with the note before it is not measured (example)."
  },
  {
   "property": "C113",
   "status": "partial",
   "theorems": [
    "Verif.GridSearch.C113_combinations_partial",
    "Verif.GridSearch.C113_lines_partial",
    "Verif.GridSearch.C113_directories_partial",
    "Verif.GridSearch.C113_fails",
    "Verif.GridSearch.C113_dash_fails",
    "Verif.GridSearch.C113_option"
   ],
   "note": "If no text has blanks or characters that mean something to the shell, and no value begins with a minus (C113_combinations_partial, C113_lines_partial, C113_directories_partial). Nothing is quoted, so a path with a blank breaks all lines (C113_fails)."
  },
  {
   "property": "C114",
   "status": "proved",
   "theorems": [
    "Verif.AverageResults.C114_averages",
    "Verif.AverageResults.C114_not_a_number",
    "Verif.AverageResults.C114_evaluate"
   ],
   "note": "`float` is a parameter; C114_evaluate needs only that it reads back what `str` of a number printed."
  },
  {
   "property": "C115",
   "status": "proved",
   "theorems": [
    "Verif.RepeatedClasses.C115_chords",
    "Verif.RepeatedClasses.C115_keys",
    "Verif.RepeatedClasses.C115_piece_chords",
    "Verif.RepeatedClasses.C115_piece_keys"
   ],
   "note": "With `use_suspension=False` (chords) and `use_relative=True` (keys), the values for which an index is defined."
  },
  {
   "property": "C116",
   "status": "partial",
   "theorems": [
    "Verif.LogState.C116_blocks_partial",
    "Verif.LogState.C116_accuracy_partial",
    "Verif.LogState.C116_unannotated"
   ],
   "note": "For pieces with annotations that begin at the first input (C116_blocks_partial, C116_accuracy_partial). A piece without annotations raises a TypeError (C116_unannotated), so `annotate.py --verbose` stops at the first unlabelled piece."
  },
  {
   "property": "C117",
   "status": "partial",
   "theorems": [
    "Verif.JointInit.C117_given",
    "Verif.JointInit.C117_test_partial",
    "Verif.JointInit.C117_version",
    "Verif.JointInit.C117_annotate_fails"
   ],
   "note": "Without flags for both scripts (C117_given), with flags for test.py (C117_test_partial, C117_version). annotate.py never calls set_default_args, so that the flags have no effect there (C117_annotate_fails)."
  },
  {
   "property": "C118",
   "status": "partial",
   "theorems": [
    "Verif.JointInit.C118_created",
    "Verif.JointInit.C118_inputs_partial",
    "Verif.JointInit.C118_inputs_fails",
    "Verif.JointInit.C118_csm_outputs",
    "Verif.JointInit.C118_labels"
   ],
   "note": "The acceptance condition (C118_created), the outputs (C118_csm_outputs, C118_labels), and the input lengths if chords and keys have the same pitch type and the KTM the same chord type (C118_inputs_partial). Both conditions are not checked, and each input length is wrong without them (C118_inputs_fails)."
  },
  {
   "property": "C119",
   "status": "proved",
   "theorems": [
    "Verif.JointInit.C119_target",
    "Verif.JointInit.C119_all"
   ],
   "note": "C119_target is the equivalence, C119_all says that each output is read."
  },
  {
   "property": "C120",
   "status": "partial",
   "theorems": [
    "Verif.DebugLog.C120_counts_partial",
    "Verif.DebugLog.C120_raises",
    "Verif.DebugLog.C120_fails"
   ],
   "note": "Counters, messages and accuracies are as stated if there is both an input with and one without a change (C120_counts_partial); otherwise an annotated piece raises, exactly then (C120_raises), in particular every piece with one annotated chord (C120_fails)."
  },
  {
   "property": "C121",
   "status": "partial",
   "theorems": [
    "Verif.DebugLog.C121_counts_partial",
    "Verif.DebugLog.C121_raises",
    "Verif.DebugLog.C121_first",
    "Verif.DebugLog.C121_last_fails",
    "Verif.DebugLog.C121_fails"
   ],
   "note": "As stated for all chords but the last one, if some such range is classified, no two chords begin together, and no range begins before the first chord (C121_counts_partial, C121_first). The range of the last chord is never counted (C121_last_fails). Without a counted range an annotated piece raises (C121_raises, C121_fails)."
  },
  {
   "property": "C122",
   "status": "partial",
   "theorems": [
    "Verif.DebugLog.C122_counts_partial",
    "Verif.DebugLog.C122_fails",
    "Verif.DebugLog.C122_first_state_fails"
   ],
   "note": "Proved with the annotated chord before the index in place of the one at it (C122_counts_partial). A test compares the number of changes the wrong way round, so a state with the annotated chord at the index is not counted (C122_fails). All states are judged at the change index of the first one, which rejoined states do not share (C122_first_state_fails)."
  },
  {
   "property": "C123",
   "status": "partial",
   "theorems": [
    "Verif.DebugLog.C123_counts_partial",
    "Verif.DebugLog.C123_silent",
    "Verif.DebugLog.C123_fails"
   ],
   "note": "As stated at key changes after the first key and states after the first chord (C123_counts_partial), and nothing elsewhere (C123_silent). A piece without annotation raises as soon as a state in its first chord is to change key, as a forced key inside the first range makes it (C123_fails)."
  },
  {
   "property": "C124",
   "status": "proved",
   "theorems": [
    "Verif.DebugLog.C124_counts",
    "Verif.DebugLog.C124_silent",
    "Verif.DebugLog.C124_total",
    "Verif.DebugLog.C124_initial"
   ],
   "note": "C124_counts, C124_silent, C124_total and C124_initial. The change index is that of the first state (see C122)."
  },
  {
   "property": "C125",
   "status": "partial",
   "theorems": [
    "Verif.H5Files.C125_exits",
    "Verif.H5Files.C125_written",
    "Verif.H5Files.C125_total",
    "Verif.H5Files.C125_splits_partial",
    "Verif.H5Files.C125_loaded_partial",
    "Verif.H5Files.C125_fails_empty",
    "Verif.H5Files.C125_fails_stale"
   ],
   "note": "Proved for directories without files of the seed (C125_splits_partial, C125_loaded_partial); what is written and what is left unchanged (C125_written), exits (C125_exits) and success otherwise (C125_total) for all directories. Files of an earlier run with the same seed stay if a split has no pieces now, so that a piece can be in the training and the validation file (C125_fails_stale). A split without pieces cannot be evaluated: an UnboundLocalError (C125_fails_empty)."
  },
  {
   "property": "C126",
   "status": "partial",
   "theorems": [
    "Verif.Checkpoints.C126_given",
    "Verif.Checkpoints.C126_version",
    "Verif.Checkpoints.C126_latest_partial",
    "Verif.Checkpoints.C126_latest_fails",
    "Verif.Checkpoints.C126_loaded",
    "Verif.Checkpoints.C126_exits"
   ],
   "note": "Given paths (C126_given), versions (C126_version), classes and names (C126_loaded) and exits (C126_exits) are as stated. The newest version is loaded if all versions have equally many digits (C126_latest_partial); as soon as there is a version 9, none of the versions 10 to 89 is ever loaded (C126_latest_fails)."
  },
  {
   "property": "C127",
   "status": "partial",
   "theorems": [
    "Verif.Forward.C127_forward",
    "Verif.Forward.C127_classify",
    "Verif.Forward.C127_classifications_partial",
    "Verif.Forward.C127_classifications_fails",
    "Verif.Forward.C127_transitions"
   ],
   "note": "Outputs and hidden states of the networks with one direction (C127_forward; for the key sequence model C128_segments), transitions (C127_transitions) and classifications (C127_classify, C127_classifications_partial) are those of the sequence alone. But a batch with one row cannot be classified: get_chord_classifications raises an exception if the number of ranges leaves remainder 1 for the batch size (C127_classifications_fails), in particular for a piece with one range."
  },
  {
   "property": "C128",
   "status": "proved",
   "theorems": [
    "Verif.Forward.C128_step",
    "Verif.Forward.C128_segments"
   ],
   "note": "C128_step: one step for each state of a list, by induction over the batches; C128_segments: segments of different lengths (key sequence model)."
  },
  {
   "property": "C129",
   "status": "proved",
   "theorems": [
    "Verif.ChordTraining.C129_input_fails",
    "Verif.ChordTraining.C129_output_fails",
    "Verif.ChordTraining.C129_widths",
    "Verif.ChordTraining.C129_batch"
   ],
   "note": "C129_widths: whatever the pieces, the rows of a batch have one width. C129_batch: contents of a batch that can be read, and when it can be. C129_input_fails: any reduction of the inputs raises ValueError (see C61); C129_output_fails: a chord without a class (e.g. a third inversion reduced to a triad) raises as well. Not included: the pitch based targets (C87)."
  },
  {
   "property": "C130",
   "status": "partial",
   "theorems": [
    "Verif.Score.C130_sum",
    "Verif.Score.C130_exact_partial",
    "Verif.Score.C130_choice_fails"
   ],
   "note": "C130_exact_partial: the sum holds as stated where the KTM never leaves the choice between changing and keeping the key. C130_sum: what the sum is in general: where there is the choice, the KTM charges nothing for keeping the key, both costs for changing it, and the cost of a change remains after rejoining. C130_choice_fails: two searches that differ in the beam size only return the same chords and keys with scores -12 and -15, where the sum of the costs is -14."
  },
  {
   "property": "C131",
   "status": "partial",
   "theorems": [
    "Verif.SearchRuns.C131_prior_index",
    "Verif.SearchRuns.C131_prior_value",
    "Verif.SearchRuns.C131_networks_partial",
    "Verif.SearchRuns.C131_midi_bass",
    "Verif.SearchRuns.C131_bass_fails",
    "Verif.SearchRuns.C131_inversions_fails",
    "Verif.SearchTotal.C131_search"
   ],
   "note": "C131_networks_partial: no exception if the classes of the ranges have bass notes and, for a CSM with inversions, the reduction does not take inversions away. C131_search: the same for any networks that are defined on the states of the search (C131_networks_partial shows that they are). C131_prior_index: which class the prior is read at. C131_prior_value: what is added for the chord. C131_midi_bass: with MIDI pitches all classes have bass notes. C131_bass_fails: a class without a bass note (tonal pitch classes: first inversion of the major chord on the highest root) stops the search with a ValueError. C131_inversions_fails: with inversions and a reduction to triads, a seventh chord in third inversion stops it with a ValueError."
  },
  {
   "property": "C132",
   "status": "partial",
   "theorems": [
    "Verif.SearchFinds.C132_search",
    "Verif.SearchFinds.C132_midi_partial",
    "Verif.SearchFinds.C132_ranges",
    "Verif.SearchFinds.C132_tpc_fails"
   ],
   "note": "C132_midi_partial: with MIDI pitches an analysis is found, for all networks and forced keys. C132_search: for any pitches, if no chord of the ranges is too far from any key and all keys can be reached from each other. C132_ranges: the ranges of get_chord_ranges lead to the end (from C50). C132_tpc_fails: with tonal pitch classes the search may return None; a major triad on the lowest root followed by one on the highest has no analysis, since no key is within reach of both and keys do not change at the first chord."
  },
  {
   "property": "C133",
   "status": "partial",
   "theorems": [
    "Verif.SearchExact.C133_spared_partial",
    "Verif.SearchExact.C133_chain_partial",
    "Verif.SearchExact.C133_ranges",
    "Verif.SearchExact.C133_exit_fails",
    "Verif.SearchExact.C133_hash_fails"
   ],
   "note": "C133_chain_partial: holds with plain beams where no two candidate ranges end at the same note; C133_ranges: this is so if no change probability of an onset lies between min_chord_change_prob and max_no_chord_change_prob. C133_spared_partial: more generally wherever the quick exit is never taken. Missing because false: C133_exit_fails, the quick exit of joint_model.py:968-974 drops states though the beam at the end of the range is almost empty, and so misses the best analysis; C133_hash_fails, hashed beams keep the better of two states with the same last chords, though the other one may be better later."
  },
  {
   "property": "C134",
   "status": "partial",
   "theorems": [
    "Verif.SearchTransposes.C134_transposes_partial",
    "Verif.SearchTransposes.C134_chooses",
    "Verif.SearchTransposes.C134_labels",
    "Verif.SearchTransposes.C134_analysis",
    "Verif.SearchTransposes.C134_ties_fails",
    "Verif.SearchTransposes.C134_conflict_fails"
   ],
   "note": "C134_transposes_partial: holds if the first key is forced and where forced labels that disagree are chosen alike (C134_chooses: no such labels, one key); C134_labels and C134_analysis say what a transposed analysis is. Missing because false: C134_ties_fails, without a forced first key analyses in different keys may tie, and the first key in the list of keys wins; C134_conflict_fails, if different keys are forced on the inputs of one chord, the order of a Python set of class indices decides."
  },
  {
   "property": "C135",
   "status": "partial",
   "theorems": [
    "Verif.TrainingSteps.C135_ctm_partial",
    "Verif.TrainingSteps.C135_ktm_csm_partial",
    "Verif.TrainingSteps.C135_ksm",
    "Verif.TrainingSteps.C135_ccm_partial",
    "Verif.TrainingSteps.C135_ccm_fails",
    "Verif.TrainingSteps.C135_nothing_fails",
    "Verif.TrainingSteps.C135_one_chord_fails",
    "Verif.TrainingSteps.C135_epoch_partial",
    "Verif.TrainingSteps.C135_pitch_partial",
    "Verif.TrainingSteps.C135_pitch_midi_fails",
    "Verif.TrainingSteps.C135_pitch_evaluate_fails"
   ],
   "note": "C135_ctm_partial, C135_ktm_csm_partial, C135_ccm_partial, C135_epoch_partial and C135_ksm: holds for batches with a position that counts and without transpositions out of range; C135_pitch_partial: training and validation of the pitch-based model with spelled pitches. Missing because false: C135_nothing_fails (the loss is NaN if nothing counts; C135_one_chord_fails: a piece with one input), C135_ccm_fails (evaluate raises on transpositions out of range), C135_pitch_midi_fails (29 outputs for 12 pitches: each step raises), C135_pitch_evaluate_fails (evaluate of the pitch-based model raises on every dataset)."
  },
  {
   "property": "C136",
   "status": "partial",
   "theorems": [
    "Verif.PitchTraining.C136_batch_partial",
    "Verif.PitchTraining.C136_measured_fails",
    "Verif.PitchTraining.C136_high_fails"
   ],
   "note": "C136_batch_partial: the batch is as stated if the pitches of the chords to be predicted are within 14 fifths of the tonic (always so with MIDI pitches) and inputs are not reduced. Missing because false: C136_high_fails (a spelled chord to be predicted with a pitch 15 to 20 fifths above the tonic: the batch raises, whatever the settings), C136_measured_fails (exactly the rows of chords without the pitch at place 0, for MIDI the tonic, are measured). Pitches 15 or more fifths below the tonic wrap around (C87)."
  },
  {
   "property": "C137",
   "status": "partial",
   "theorems": [
    "Verif.KeyTraining.C137_left",
    "Verif.KeyTraining.C137_memory_partial",
    "Verif.KeyTraining.C137_loaded_partial",
    "Verif.KeyTraining.C137_first_piece_fails",
    "Verif.KeyTraining.C137_batches",
    "Verif.KeyTraining.C137_mixed_fails",
    "Verif.KeyTraining.C137_modulating_fails"
   ],
   "note": "C137_memory_partial: holds for a dataset in memory and pieces shorter than the longest one; C137_left and C137_loaded_partial: exactly what is left of each piece after the h5 file (as many chords of piece p as item number p of the dataset has), and what the models then get. Missing because false: C137_first_piece_fails and C137_modulating_fails (zeros in place of all chords after the first key change of the first piece), C137_mixed_fails (items of the longest piece and of another one do not fit into one batch)."
  },
  {
   "property": "C138",
   "status": "partial",
   "theorems": [
    "Verif.CourseData.C138_visits_partial",
    "Verif.CourseData.C138_twice_fails",
    "Verif.CourseData.C138_space_fails",
    "Verif.CourseData.C138_lines_fails",
    "Verif.CourseData.C138_end_partial"
   ],
   "note": "C138_visits_partial: each file is visited once under its own composer if no composer is a proper first part of another one and no name has white space in front; C138_end_partial: the script ends normally just if no visited file gives a piece, and then writes empty vocabularies. Missing because false: C138_lines_fails (if any visited file gives a piece the script ends with a TypeError, as lists are added to sets; one empty file is left), C138_twice_fails, C138_space_fails."
  },
  {
   "property": "C139",
   "status": "partial",
   "theorems": [
    "Verif.TranspositionCnn.C139_conv_partial",
    "Verif.TranspositionCnn.C139_rows_fails",
    "Verif.TranspositionCnn.C139_forward_fails"
   ],
   "note": "C139_conv_partial: the convolution with circular padding commutes with rotations, and has each pitch twice and the first one three times. Missing because false: C139_forward_fails (forward never gives an output, for any data and settings), C139_rows_fails (on vectors of all pitches it fails already at the input layer, as the convolution has 2n + 1 places in place of 12)."
  },
  {
   "property": "C140",
   "status": "partial",
   "theorems": [
    "Verif.LabelledThroughout.C140_labels_partial",
    "Verif.LabelledThroughout.C140_last_fails",
    "Verif.LabelledThroughout.C140_key_fails"
   ],
   "note": "C140_labels_partial: holds if the key changes only with the chord and the labels do not change at the last onset without a certain chord change there. Missing because false: C140_last_fails (the labels of the last onset are not looked at by get_chord_ranges), C140_key_fails (a key change under one chord is lost, the two ranges are rejoined)."
  },
  {
   "property": "C141",
   "status": "proved",
   "theorems": [
    "Verif.StableResult.C141_same",
    "Verif.StableResult.C141_accepted",
    "Verif.StableResult.C141_changes_needed"
   ],
   "note": "C141_same: the same chords and keys, for any models in the second run. C141_accepted: the forced input is accepted and its ranges lead to the end (ids of the result are assumed to be labels). C141_changes_needed: with chords and keys forced but not the changes, the same models give another result."
  },
  {
   "property": "C142",
   "status": "partial",
   "theorems": [
    "Verif.TrainScript.C142_latest_partial",
    "Verif.TrainScript.C142_latest_fails",
    "Verif.TrainScript.C142_version",
    "Verif.TrainScript.C142_icm",
    "Verif.TrainScript.C142_class",
    "Verif.TrainScript.C142_order_needed",
    "Verif.TrainScript.C142_trained",
    "Verif.TrainScript.C142_csm_partial",
    "Verif.TrainScript.C142_kwargs",
    "Verif.TrainScript.C142_rate_fails",
    "Verif.TrainScript.C142_pitch_kwargs",
    "Verif.TrainScript.C142_fixed",
    "Verif.TrainScript.C142_width"
   ],
   "note": "C142_latest_partial / C142_csm_partial: at most ten runs of the model. C142_latest_fails: from the eleventh run on the tenth is loaded instead (texts are sorted, not numbers), so what is missing is false. C142_version, C142_class, C142_icm, C142_kwargs hold without bound. C142_rate_fails: learning_rate in --model-kwargs is a TypeError for every model. C142_order_needed: with the classes tried in the other order a CSM could be loaded as a CSM-P. Assumed of Lightning: the version of a run is one more than the largest there; load_from_checkpoint builds the class from the saved parameters it has and compares all sizes. C142_fixed: whatever the file of arguments says, spelled pitches of scores are used. C142_width: the input of the CSM is as wide as the rows it is trained on (C129)."
  },
  {
   "property": "C143",
   "status": "partial",
   "theorems": [
    "Verif.WriteScores.C143_picks",
    "Verif.WriteScores.C143_suffix",
    "Verif.WriteScores.C143_own_partial",
    "Verif.WriteScores.C143_own_fails",
    "Verif.WriteScores.C143_dot_fails",
    "Verif.WriteScores.C143_calls",
    "Verif.WriteScores.C143_xml_fails",
    "Verif.WriteScores.C143_annotate_fails"
   ],
   "note": "C143_calls: one call for each piece, in its folders and under its name (and two more, for the tables of results). C143_picks, C143_suffix: with a plain name exactly the files are parsed whose names end with it; C143_own_partial: only those of the piece if no other name in the folder ends with its name. What is missing is false: C143_own_fails (op18 also parses 2op18), C143_dot_fails (a full stop in a name is any character), C143_xml_fails (labels of MusicXML pieces are in files .mxl and are written onto no score), C143_annotate_fails (after annotate.py the folder of the piece is lost). Assumed of the library: file_re is searched anywhere in the name."
  },
  {
   "property": "C144",
   "status": "partial",
   "theorems": [
    "Verif.ForcedAccuracy.C144_chords_partial",
    "Verif.ForcedAccuracy.C144_all_partial",
    "Verif.ForcedAccuracy.C144_annotation_partial",
    "Verif.ForcedAccuracy.C144_last_fails",
    "Verif.ForcedAccuracy.C144_key_fails"
   ],
   "note": "C144_chords_partial: the accuracy is at least the share of the notes with forced chords, if these are given for whole onsets and a different label at the last onset comes with a forced change. C144_all_partial: with chords and keys forced on every note all accuracies are 1, if the key changes only where the chord does. C144_annotation_partial: so it is for the forces made from an annotation with its chord changes. What is missing is false: without a forced change at the last onset the chord before it can be lost (C144_last_fails), and a change of key inside of a chord is lost (C144_key_fails)."
  },
  {
   "property": "C145",
   "status": "partial",
   "theorems": [
    "Verif.HarmonyCalls.C145_call",
    "Verif.HarmonyCalls.C145_calls",
    "Verif.HarmonyCalls.C145_again",
    "Verif.HarmonyCalls.C145_reset_partial",
    "Verif.HarmonyCalls.C145_reset_fails",
    "Verif.HarmonyCalls.C145_left"
   ],
   "note": "C145_call and C145_calls: every call gives the result of the function of C30 on its own arguments, whatever the attributes were, so a sequence of calls gives what new models would give. C145_again: the sets of the caller lose 0 and nothing else, and with these sets the result is the same. C145_reset_partial: after a call that returns there is no current piece. What is missing is false: after a call that raises the piece is always left, also after rejected forced labels, for which there is code that should reset it (C145_reset_fails). C145_left: each call finds what the calls before it have left."
  },
  {
   "property": "C146",
   "status": "proved",
   "theorems": [
    "Verif.SearchWork.C146_result",
    "Verif.SearchWork.C146_work",
    "Verif.SearchWork.C146_asks",
    "Verif.SearchWork.C146_factor",
    "Verif.SearchWork.C146_ranges"
   ],
   "note": "C146_work: the bounds, for every search that returns (C131 says when it does). C146_result: the search that counts has the result of the search of C47. C146_factor: what is branched on is at most the branching factor. C146_ranges: the number of ranges from a note. Beams have size one or more, and the log probabilities are compared as numbers. C146_asks ties the counts to the search: any networks that agree with those of the search on as many states as are counted give the same result."
  },
  {
   "property": "C147",
   "status": "partial",
   "theorems": [
    "Verif.ClassTraining.C147_items_partial",
    "Verif.ClassTraining.C147_numbers",
    "Verif.ClassTraining.C147_h5",
    "Verif.ClassTraining.C147_unlabelled_fails",
    "Verif.ClassTraining.C147_rows_fail"
   ],
   "note": "C147_items_partial: the dataset and its items; C147_numbers: their numbers are a bijection; C147_h5: the same after an h5 file. False: the transposed rows are the rows of no note at all, since height and octaves are not transposed (C147_rows_fail); a piece with an empty list of chords makes the dataset impossible (C147_unlabelled_fails); and what is missing from C86 and C93. Rounding to float16 is not modelled."
  },
  {
   "property": "C148",
   "status": "partial",
   "theorems": [
    "Verif.TransitionTraining.C148_batch_partial",
    "Verif.TransitionTraining.C148_h5",
    "Verif.TransitionTraining.C148_changes",
    "Verif.TransitionTraining.C148_last_fails",
    "Verif.TransitionTraining.C148_end_fails"
   ],
   "note": "C148_batch_partial: the batch; C148_changes: every chord is at its note; C148_h5: the same after an h5 file. False: if a chord begins after all notes, the last note is said to begin a chord (C148_last_fails); if a note begins long after the end of the last chord, the sum of its vector is not positive, so it is taken for padding (C148_end_fails). Rounding to float16 is not modelled."
  },
  {
   "property": "C149",
   "status": "partial",
   "theorems": [
    "Verif.TablePiece.C149_piece_partial",
    "Verif.TablePiece.C149_targets",
    "Verif.TablePiece.C149_learned",
    "Verif.TablePiece.C149_classes",
    "Verif.TablePiece.C149_unread_fails"
   ],
   "note": "C149_piece_partial: the piece that is loaded; C149_targets and C149_learned: what the transition model is trained on; C149_classes: what the classifier is trained on. False: a row that cannot be read between two rows with the same chord makes one chord whose duration is not the distance between its ends (C149_unread_fails). Tables with one note or one chord raise an error (C79, C91)."
  },
  {
   "property": "C150",
   "status": "partial",
   "theorems": [
    "Verif.SequenceTables.C150_chords",
    "Verif.SequenceTables.C150_transitions",
    "Verif.SequenceTables.C150_sequences",
    "Verif.SequenceTables.C150_piece_partial",
    "Verif.SequenceTables.C150_targets",
    "Verif.SequenceTables.C150_rows",
    "Verif.SequenceTables.C150_distant_fails"
   ],
   "note": "C150_piece_partial: chords and keys of the loaded piece; C150_rows: chords near their tonics in terms of rows; C150_chords, C150_transitions and C150_sequences: when the datasets can be made; C150_targets: what the chord sequence model is trained on. False: not all pieces that can be loaded can be trained on, one distant chord is a ValueError (C150_distant_fails)."
  },
  {
   "property": "C151",
   "status": "proved",
   "theorems": [
    "Verif.Printing.C151_chord",
    "Verif.Printing.C151_note",
    "Verif.Printing.C151_key",
    "Verif.Printing.C151_chords",
    "Verif.Printing.C151_chord_repr",
    "Verif.Printing.C151_note_repr",
    "Verif.Printing.C151_key_repr",
    "Verif.Printing.C151_chord_repr_eq",
    "Verif.Printing.C151_untold"
   ],
   "note": "C151_chord, C151_note, C151_key: str; C151_chords: lists of chords; C151_note_repr, C151_key_repr, C151_chord_repr and C151_chord_repr_eq: repr. C151_untold: what is not told (the key of a chord and the pitch type by str, a suspension called None by repr)."
  },
  {
   "property": "C152",
   "status": "proved",
   "theorems": [
    "Verif.EvalMoves.C152_chords",
    "Verif.EvalMoves.C152_keys",
    "Verif.EvalMoves.C152_jointly",
    "Verif.EvalMoves.C152_search"
   ],
   "note": "C152_chords, C152_keys, C152_jointly: moved annotations and estimates have the same accuracies. C152_search: the analysis of a moved piece, under the hypotheses of C134_transposes_partial."
  },
  {
   "property": "C153",
   "status": "partial",
   "theorems": [
    "Verif.BeamSizes.C153_sound",
    "Verif.BeamSizes.C153_room_partial",
    "Verif.BeamSizes.C153_hash_partial",
    "Verif.BeamSizes.C153_branching_partial",
    "Verif.BeamSizes.C153_fails"
   ],
   "note": "C153_sound: what is returned is an allowed analysis of the whole piece, for all beams. C153_room_partial, C153_hash_partial: no beam of another size and no hash does better than plain beams with room for all states, where no state is dropped by the quick exit. C153_branching_partial: nor does less branching. Missing because false: for two beams without that room the larger one may do worse (C153_fails)."
  },
  {
   "property": "C154",
   "status": "proved",
   "theorems": [
    "Verif.Renumber.C154_lengths",
    "Verif.Renumber.C154_sequence",
    "Verif.Renumber.C154_inputs",
    "Verif.Renumber.C154_class",
    "Verif.Renumber.C154_transition"
   ],
   "note": "C154_lengths: distances. C154_inputs: inputs of the chord classifier, with and without given ranges. C154_sequence: chords, keys and key changes from tables. C154_class, C154_transition: training data from tables, each piece moved by its own number."
  },
  {
   "property": "C155",
   "status": "proved",
   "theorems": [
    "Verif.MovedPieces.C155_chords",
    "Verif.MovedPieces.C155_transitions",
    "Verif.MovedPieces.C155_sequences",
    "Verif.MovedPieces.C155_tables"
   ],
   "note": "C155_chords, C155_transitions, C155_sequences: the data of moved pieces, without conditions. C155_tables: tables in another key are read as the moved piece, if the pitches are in range in both keys."
  },
  {
   "property": "C156",
   "status": "proved",
   "theorems": [
    "Verif.NoteValues.C156_lengths",
    "Verif.NoteValues.C156_proportions",
    "Verif.NoteValues.C156_levels",
    "Verif.NoteValues.C156_inputs",
    "Verif.NoteValues.C156_ranges",
    "Verif.NoteValues.C156_accuracy",
    "Verif.NoteValues.C156_piece",
    "Verif.NoteValues.C156_sequence",
    "Verif.NoteValues.C156_class",
    "Verif.NoteValues.C156_transition",
    "Verif.NoteValues.C156_chord"
   ],
   "note": "C156_lengths, C156_proportions, C156_levels: rhythm. C156_inputs, C156_chord: which entries of the inputs change. C156_ranges: possible chords. C156_accuracy: the three accuracies. C156_piece, C156_sequence: reading of tables. C156_class, C156_transition: training data from tables. Not stated: the end of a search, since the networks are given."
  },
  {
   "property": "C157",
   "status": "proved",
   "theorems": [
    "Verif.CostUnits.C157_search",
    "Verif.CostUnits.C157_analysis",
    "Verif.CostUnits.C157_base"
   ],
   "note": "C157_search: for any map of units and of hidden states; C157_base: logarithms to another base, on any ordered field; C157_analysis: same chords, keys and changes, and the score in the new unit. Arithmetic is exact; with floating-point numbers rounding may break ties differently."
  },
  {
   "property": "C158",
   "status": "partial",
   "theorems": [
    "Verif.LooserLimits.C158_ranges",
    "Verif.LooserLimits.C158_search_partial",
    "Verif.LooserLimits.C158_keys_fails"
   ],
   "note": "Proved: C158_ranges (looser limits on ranges and fewer forced labels only add ranges), C158_search_partial (more ranges never make the result of an exhaustive search without quick exits worse). False for the limits on changes of key: C158_keys_fails, since where a key may be kept as well as changed, the states that change it are charged for both (joint_model.py:1067)."
  },
  {
   "property": "C159",
   "status": "partial",
   "theorems": [
    "Verif.AnnotatedRows.C159_rows_partial",
    "Verif.AnnotatedRows.C159_ktm_partial",
    "Verif.AnnotatedRows.C159_csm",
    "Verif.AnnotatedRows.C159_ksm_partial",
    "Verif.AnnotatedRows.C159_rest_fails",
    "Verif.AnnotatedRows.C159_last_fails"
   ],
   "note": "Proved: C159_rows_partial, C159_ktm_partial, C159_csm, C159_ksm_partial, for analyses in which each chord begins with a note and, where the last chord is used, its offset has the metrical level of the last note's offset (use_relative, spelled pitches). False without these: C159_rest_fails (a chord that begins in a rest: no chain of states gives the vector of the datasets), C159_last_fails (a last note that ends before the last chord)."
  },
  {
   "property": "C160",
   "status": "partial",
   "theorems": [
    "Verif.LocalKeys.C160_targets_partial",
    "Verif.LocalKeys.C160_rows_partial",
    "Verif.LocalKeys.C160_applied_fails"
   ],
   "note": "Proved: C160_targets_partial, C160_rows_partial, with use_relative, or if no key in the list of keys is an applied one. False otherwise: C160_applied_fails, since the encoding of key changes reads the relative key of the first chord of each local key."
  },
  {
   "property": "C161",
   "status": "partial",
   "theorems": [
    "Verif.AnalysedPieces.C161_labels_partial",
    "Verif.AnalysedPieces.C161_caches",
    "Verif.AnalysedPieces.C161_harmony",
    "Verif.AnalysedPieces.C161_numbers",
    "Verif.AnalysedPieces.C161_end_fails"
   ],
   "note": "Proved: C161_labels_partial (if the last chord ends where the last note ends, or two sets of labels end at the same place), C161_harmony, C161_numbers. False otherwise: C161_end_fails, the duration of the last note is counted until the end of the last chord, and networks may see that."
  },
  {
   "property": "C162",
   "status": "partial",
   "theorems": [
    "Verif.TransposedPieces.C162_transposes_partial",
    "Verif.TransposedPieces.C162_rows",
    "Verif.TransposedPieces.C162_order",
    "Verif.TransposedPieces.C162_key_fails"
   ],
   "note": "Proved: C162_transposes_partial (one key is forced on the first note at least, and at most one chord label is forced), C162_rows (which entries of the vectors a network sees moved), C162_order (the order of the chords moves if there are no ties). False without a forced key: C162_key_fails, the search takes the first of equally good keys."
  },
  {
   "property": "C163",
   "status": "proved",
   "theorems": [
    "Verif.ForcedSets.C163_forces",
    "Verif.ForcedSets.C163_order",
    "Verif.ForcedSets.C163_split",
    "Verif.ForcedSets.C163_nothing"
   ],
   "note": "C163_forces is the general statement (SameForces), C163_order, C163_split and C163_nothing are what it means for orders, for labels in parts, and for a change at the first note and empty ranges. Which exception is raised may depend on the order (an example shows this)."
  },
  {
   "property": "C164",
   "status": "proved",
   "theorems": [
    "Verif.Barlines.C164_measures",
    "Verif.Barlines.C164_inputs",
    "Verif.Barlines.C164_class",
    "Verif.Barlines.C164_transition"
   ],
   "note": "C164_measures is about the analysis, C164_inputs, C164_class and C164_transition about training. The metrical levels of the notes are assumed to be the same: they are what the measures are for (C32)."
  },
  {
   "property": "C165",
   "status": "proved",
   "theorems": [
    "Verif.EvalDistance.C165_labels",
    "Verif.EvalDistance.C165_division",
    "Verif.EvalDistance.C165_same",
    "Verif.EvalDistance.C165_symmetric",
    "Verif.EvalDistance.C165_triangle"
   ],
   "note": "C165_labels: every piece and estimate that cover all notes have labels at all notes. C165_division, C165_same, C165_symmetric and C165_triangle are about the three accuracies at once. A piece whose first chord is after its first note is left out (C37_before_first_chord)."
  },
  {
   "property": "C166",
   "status": "proved",
   "theorems": [
    "Verif.Thresholds.C166_keys",
    "Verif.Thresholds.C166_chords",
    "Verif.Thresholds.C166_one_chord",
    "Verif.Thresholds.C166_count",
    "Verif.Thresholds.C166_certain",
    "Verif.Thresholds.C166_divides",
    "Verif.Thresholds.C166_one_key"
   ],
   "note": "C166_keys is about the search (each pair of neighbouring nodes of the result), C166_chords, C166_count, C166_certain, C166_divides, C166_one_chord and C166_one_key are about get_harmony. No algebra of the log probabilities is assumed, but for values (minus infinity, NaN) that no addition or subtraction leaves in C166_certain and C166_divides, as in C100."
  },
  {
   "property": "C167",
   "status": "proved",
   "theorems": [
    "Verif.RuledOut.C167_chords",
    "Verif.RuledOut.C167_keys",
    "Verif.RuledOut.C167_jointly"
   ],
   "note": "C167_chords and C167_keys: min of the two durations is at most (1 - accuracy) times the whole duration. C167_jointly carries this over to the joint accuracy. The hypotheses on the annotation are those of C37 (changes sorted from the first note on, chords with classes)."
  },
  {
   "property": "C168",
   "status": "proved",
   "theorems": [
    "Verif.Classify.C168_justified",
    "Verif.Classify.C168_ranked",
    "Verif.Choices.C168_first"
   ],
   "note": "The window of notes classified, the order of the classes and the number to branch on are those of get_harmony (m.ccm, m.argsort, m.branch: arbitrary functions here; C71 says what the number is). C168_first is about each pair of neighbouring nodes of the result, C168_justified and C168_ranked about the chords and changes of get_chords."
  },
  {
   "property": "C169",
   "status": "proved",
   "theorems": [
    "Verif.Choices.C169_keys",
    "Verif.Choices.C169_harmony"
   ],
   "note": "C169_keys is about the search, C169_harmony about get_harmony without forced keys. A relative key leads somewhere if its key exists, is not the present one and the chord can begin it (Leads)."
  },
  {
   "property": "C170",
   "status": "proved",
   "theorems": [
    "Verif.Pipeline.C170_pipeline",
    "Verif.Pipeline.C170_determined"
   ],
   "note": "C170_pipeline gives the chords and changes outright by a function written without the search (cuts, label, labels). C170_determined compares two models, which may differ in the types of their hidden states too. Possible: the log probability of the analysis is not minus infinity."
  }
 ]
}