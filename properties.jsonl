{"id": "C01", "title": "Chord class index: encode then decode returns the chord", "statement": "Whenever get_chord_one_hot_index accepts a (chord type, root, inversion) it returns an index i with 0 <= i < get_chord_vector_length(one_hot=True) for the same settings, and get_chord_from_one_hot_index(i) with the same settings returns exactly (root shifted to the decoder's root range, reduced chord type, inversion or 0 when inversions are off). It accepts every chord whose root lies in the class range and whose inversion is below the inversion count of the reduced type, and raises ValueError for every other chord.", "quantifier": "every pitch type, relative/absolute, padded/unpadded, inversions on/off, every chord-type reduction (any map from chord types to chord types), every integer root and inversion", "why_tests_cant": "the number of reductions is 12^12 and roots/inversions are unbounded integers; tests try a few reductions and in-range roots only", "anchors": ["harmonic_inference/utils/harmonic_utils.py:get_chord_one_hot_index", "harmonic_inference/utils/harmonic_utils.py:get_chord_from_one_hot_index", "harmonic_inference/data/chord.py:get_chord_vector_length"]}
{"id": "C02", "title": "Chord class index: decode then encode returns the index, and labels agree", "statement": "For every index below the class count, decoding and re-encoding (with the decoder's root offset removed) gives back the same index, so the classes are exactly the indices 0..n-1 with no two indices for the same chord; the label list has exactly n entries and the entry at that index is the printed form of the decoded chord.", "quantifier": "every setting (pitch type, relative, pad, inversions, reduction) and every index in range", "why_tests_cant": "tests pick a default reduction and sample indices; the claim is over all reductions including non-idempotent ones", "anchors": ["harmonic_inference/utils/harmonic_utils.py:get_chord_from_one_hot_index", "harmonic_inference/utils/harmonic_utils.py:get_chord_label_list", "harmonic_inference/utils/harmonic_utils.py:get_chord_one_hot_index", "harmonic_inference/data/chord.py:get_chord_vector_length"]}
{"id": "C03", "title": "Key index bijection", "statement": "get_key_one_hot_index and get_key_from_one_hot_index are mutually inverse between (mode, tonic in range) and indices 0..2*NUM_PITCHES-1, ValueError is raised exactly for tonics out of range, and get_key_label_list has one label per index, at the index of the key it prints.", "quantifier": "every pitch type, mode, and integer tonic; every index", "why_tests_cant": "tonics are unbounded integers and the error side must hold for all of them", "anchors": ["harmonic_inference/utils/harmonic_utils.py:get_key_one_hot_index", "harmonic_inference/utils/harmonic_utils.py:get_key_from_one_hot_index", "harmonic_inference/utils/harmonic_utils.py:get_key_label_list"]}
{"id": "C04", "title": "Transposition is a partial group action", "statement": "transpose_pitch by a then by b equals transpose_pitch by a+b whenever the steps are accepted; transposing by a then -a is the identity on valid pitches; MIDI transposition always lands in 0..11; TPC transposition fails with ValueError exactly when the sum leaves 0..34.", "quantifier": "every pitch type, every integer pitch and all integer intervals", "why_tests_cant": "unbounded integers, and the error condition is an if-and-only-if", "anchors": ["harmonic_inference/utils/harmonic_utils.py:transpose_pitch"]}
{"id": "C05", "title": "Relative pitch conversion is exact and invertible", "statement": "absolute_to_relative(note, key) returns an index inside the vector range of its mode (chord, padded chord, key change) and the original interval note-key can be recovered from it (exactly for TPC, modulo 12 for MIDI); ValueError is raised exactly for TPC intervals outside that range; transposing note and key together does not change the result.", "quantifier": "every pitch type, key-change/chord flag, pad flag, all integer notes and keys", "why_tests_cant": "unbounded integers with a two-sided error condition", "anchors": ["harmonic_inference/utils/harmonic_utils.py:absolute_to_relative"]}
{"id": "C06", "title": "TPC pitch spelling round trip", "statement": "For every TPC pitch 0..34 get_pitch_from_string(get_pitch_string(p)) = p; and for each letter with any number of flats or sharps get_pitch_from_string either returns the pitch 7 fifths per accidental away from the natural or raises ValueError exactly when this leaves 0..34.", "quantifier": "all TPC pitches; all letters and accidental strings of any length", "why_tests_cant": "accidental strings have unbounded length", "anchors": ["harmonic_inference/utils/harmonic_utils.py:get_pitch_from_string", "harmonic_inference/utils/harmonic_utils.py:get_pitch_string", "harmonic_inference/utils/harmonic_utils.py:get_accidental_adjustment"]}
{"id": "C07", "title": "MIDI pitch spelling round trip", "statement": "For every integer pitch, get_pitch_from_string(get_pitch_string(p, MIDI), MIDI) = p mod 12, and reading a letter followed by any number of sharps and then any number of flats as MIDI gives the natural plus one semitone for each sharp and minus one for each flat, modulo 12.", "quantifier": "all integers; all letters and all numbers of sharps and flats", "why_tests_cant": "unbounded integers and string lengths", "anchors": ["harmonic_inference/utils/harmonic_utils.py:get_pitch_from_string", "harmonic_inference/utils/harmonic_utils.py:get_pitch_string"]}
{"id": "C08", "title": "TPC to MIDI conversion respects transposition", "statement": "Converting a TPC pitch to MIDI (to_pitch_type of Key and Chord, or get_pitch_from_string of get_pitch_string) equals 7*(p-C) modulo 12, so it commutes with transposition: converting p transposed by i is converting p then transposing by tpc_interval_to_midi_interval(i). Converting a Key/Chord to its own pitch type changes nothing.", "quantifier": "all TPC pitches and intervals; all keys and chords", "why_tests_cant": "needs every pair (pitch, interval) and every chord/key object", "anchors": ["harmonic_inference/utils/harmonic_utils.py:get_pitch_string", "harmonic_inference/utils/harmonic_utils.py:get_pitch_from_string", "harmonic_inference/utils/harmonic_utils.py:tpc_interval_to_midi_interval", "harmonic_inference/data/key.py:Key.to_pitch_type", "harmonic_inference/data/chord.py:Chord.to_pitch_type"]}
{"id": "C09", "title": "MIDI to TPC conversion picks a matching TPC pitch", "statement": "to_pitch_type from MIDI to TPC returns, as documented, some TPC pitch that converts back to the same MIDI pitch.", "quantifier": "every MIDI key and chord", "why_tests_cant": "tests only use natural pitches; the documented contract covers all twelve classes", "anchors": ["harmonic_inference/data/key.py:Key.to_pitch_type", "harmonic_inference/data/chord.py:Chord.to_pitch_type", "harmonic_inference/utils/harmonic_utils.py:get_pitch_from_string"]}
{"id": "C10", "title": "Scale degree and interval are inverse", "statement": "get_interval_from_scale_degree(get_scale_degree_from_interval(i)) = i for each mode (exactly for TPC, modulo 12 for MIDI), however remote the interval is.", "quantifier": "every integer interval, both modes, both pitch types", "why_tests_cant": "the number of accidentals grows without bound with the interval", "anchors": ["harmonic_inference/utils/harmonic_utils.py:get_scale_degree_from_interval", "harmonic_inference/utils/harmonic_utils.py:get_interval_from_scale_degree"]}
{"id": "C11", "title": "Accidental parsing", "statement": "get_accidental_adjustment splits off the accidentals at the chosen end: flats count -1, sharps +1, the rest of the string is returned untouched, and letters that look like accidentals but are the note itself (a lone 'b') are not consumed. The error cases are exactly the strings that run out of characters while removing sharps.", "quantifier": "every string, in front or behind", "why_tests_cant": "strings are unbounded and 'b' is both a flat and a pitch name", "anchors": ["harmonic_inference/utils/harmonic_utils.py:get_accidental_adjustment"]}
{"id": "C12", "title": "Splitting chord changes loses nothing", "statement": "split_changes_into_list either fails because a trailing fragment has no scale degree number, or returns pieces whose concatenation is the input, each of which is optional non-digit characters followed by one digit-run step of the documented form.", "quantifier": "every change string", "why_tests_cant": "unbounded strings; tests try a handful of annotation strings", "anchors": ["harmonic_inference/utils/harmonic_utils.py:split_changes_into_list"]}
{"id": "C13", "title": "Relative key chains compose", "statement": "decode_relative_keys on 'x/y' equals decoding y first and then x relative to the result, for any number of slashes; with MIDI tonics the result is always a pitch in 0..11, and for TPC the result, when there is one, is a valid pitch and the exact sum of all intervals.", "quantifier": "every chain of relative roots of any length, every starting key", "why_tests_cant": "chain length is unbounded", "anchors": ["harmonic_inference/utils/harmonic_utils.py:decode_relative_keys"]}
{"id": "C14", "title": "Bass note is a chord tone and inversion is recoverable", "statement": "get_bass_note returns the root plus one of the chord type's intervals, the bass of inversion k of each chord type is distinct for distinct k, and the vector of a chord contains exactly root-transposed chord tones.", "quantifier": "every chord type, inversion, pitch type and root", "why_tests_cant": "roots are unbounded for TPC (partial range) and each tone set must be checked as a set", "anchors": ["harmonic_inference/utils/harmonic_utils.py:get_bass_note", "harmonic_inference/utils/harmonic_utils.py:get_vector_from_chord_type", "harmonic_inference/utils/harmonic_utils.py:transpose_chord_vector", "harmonic_inference/utils/harmonic_utils.py:get_chord_inversion_count"]}
{"id": "C15", "title": "Beam without forcing keeps exactly the best states", "statement": "After any sequence of non-forced adds to an empty Beam of size k >= 1, the beam holds min(k, number of adds) of the added states, and no rejected or evicted state has a strictly greater log probability than any kept state.", "quantifier": "every beam size, every sequence of states with any log probabilities including ties", "why_tests_cant": "all add histories of any length, including ties and forced adds mixed in", "anchors": ["harmonic_inference/utils/beam_search_utils.py:Beam.add", "harmonic_inference/utils/beam_search_utils.py:Beam.fits_in_beam", "harmonic_inference/utils/beam_search_utils.py:Beam.get_top_state"]}
{"id": "C16", "title": "fits_in_beam predicts add", "statement": "For both Beam and HashedBeam, in any reachable beam, fits_in_beam(state) is True exactly when a following non-forced add(state) returns True, and add changes the beam contents exactly when it returns True.", "quantifier": "every reachable beam and every state", "why_tests_cant": "quantifies over all beam histories", "anchors": ["harmonic_inference/utils/beam_search_utils.py:Beam.fits_in_beam", "harmonic_inference/utils/beam_search_utils.py:Beam.add", "harmonic_inference/utils/beam_search_utils.py:HashedBeam.fits_in_beam", "harmonic_inference/utils/beam_search_utils.py:HashedBeam.add"]}
{"id": "C17", "title": "HashedBeam never breaks its own bookkeeping", "statement": "After any sequence of adds (forced or not) to a new HashedBeam with size >= 1 no internal exception can occur, no two states in the beam have the same hash, its length never exceeds the beam size unless forced, and the state at the top of its heap is a live one of least log probability.", "quantifier": "every sequence of adds with any hashes and log probabilities", "why_tests_cant": "lazy deletion makes the heap and the dictionary disagree; the relevant interleavings are unbounded", "anchors": ["harmonic_inference/utils/beam_search_utils.py:HashedBeam.add", "harmonic_inference/utils/beam_search_utils.py:HashedBeam._fix_beam_min", "harmonic_inference/utils/beam_search_utils.py:HashedBeam.fits_in_beam"]}
{"id": "C18", "title": "HashedBeam keeps the best state and the best of every hash it keeps", "statement": "After any sequence of adds the best state ever added is still represented (get_top_state has the maximum log probability of all states added). If none of the adds is forced, each kept state is also the best state added so far with its hash.", "quantifier": "every sequence of adds", "why_tests_cant": "history property over unbounded add sequences", "anchors": ["harmonic_inference/utils/beam_search_utils.py:HashedBeam.add", "harmonic_inference/utils/beam_search_utils.py:Beam.get_top_state"]}
{"id": "C19", "title": "Emptying a beam makes it behave like a new one", "statement": "After empty(), the beam behaves exactly as a newly constructed beam of the same size for every later sequence of operations.", "quantifier": "every prior history and every later sequence of operations", "why_tests_cant": "behavioural equivalence over unbounded continuations", "anchors": ["harmonic_inference/utils/beam_search_utils.py:Beam.empty", "harmonic_inference/utils/beam_search_utils.py:HashedBeam.empty"]}
{"id": "C20", "title": "Decoded chords tile the piece", "statement": "For every state built from an initial state by chord transitions, key transitions and rejoins with increasing change indices, get_chords returns one more change index than chords, the indices start at the initial index, strictly increase, and end at the state's change index; rejoining extends the last segment instead of adding one.", "quantifier": "every sequence of transitions", "why_tests_cant": "paths through the search are unbounded", "anchors": ["harmonic_inference/utils/beam_search_utils.py:State.get_chords", "harmonic_inference/utils/beam_search_utils.py:State.chord_transition", "harmonic_inference/utils/beam_search_utils.py:State.rejoin", "harmonic_inference/utils/beam_search_utils.py:State.key_transition"]}
{"id": "C21", "title": "Decoded keys are maximal runs of the per-chord keys", "statement": "get_keys returns no two equal consecutive keys, its change indices are a subset of the chord change indices with the same first and last elements, and expanding the key list over the inputs gives at each input the key of the chord covering it.", "quantifier": "every reachable state", "why_tests_cant": "paths through the search are unbounded", "anchors": ["harmonic_inference/utils/beam_search_utils.py:State.get_keys", "harmonic_inference/utils/beam_search_utils.py:State.get_chords"]}
{"id": "C22", "title": "State hash is the recent history", "statement": "The hash of any state has exactly hash_length entries and equals the (key, chord) pairs of the last hash_length positions of its chain, padded with empty entries; two states get the same hash exactly when those recent histories agree.", "quantifier": "every reachable state, every hash length >= 1", "why_tests_cant": "history dependent, incremental update vs. full recomputation", "anchors": ["harmonic_inference/utils/beam_search_utils.py:State.__init__", "harmonic_inference/utils/beam_search_utils.py:State.get_hash"]}
{"id": "C23", "title": "Rejoining undoes the transition cost exactly", "statement": "Rejoining a state over a range gives the same log probability as its predecessor would have obtained by taking the longer range directly: the sequence and key costs of the superseded transition are removed exactly once, the key returns to the predecessor's key.", "quantifier": "every state reached by a transition (with or without a key change) and every rejoin cost", "why_tests_cant": "needs all combinations of chord, key sequence and key transition costs over all log probabilities", "anchors": ["harmonic_inference/utils/beam_search_utils.py:State.rejoin", "harmonic_inference/utils/beam_search_utils.py:State.chord_transition", "harmonic_inference/utils/beam_search_utils.py:State.key_transition", "harmonic_inference/utils/beam_search_utils.py:State.add_ktm_log_prob"]}
{"id": "C24", "title": "Transition guards keep relative chords encodable", "statement": "If chord_transition succeeds and does not demand a key change then the relative root and bass lie in the unpadded range and the relative one-hot index of the new state exists; if it does demand a key change the relative pitches lie in the padded range; otherwise it returns None. key_transition succeeds exactly for chords inside the unpadded range of the new key.", "quantifier": "every chord, key and pitch type pair", "why_tests_cant": "all (chord, key) pairs and every history", "anchors": ["harmonic_inference/utils/beam_search_utils.py:State.chord_transition", "harmonic_inference/utils/beam_search_utils.py:State.key_transition", "harmonic_inference/utils/beam_search_utils.py:State.get_relative_chord_index"]}
{"id": "C25", "title": "Chord ranges are sound", "statement": "Every range returned by get_chord_ranges starts before it ends, starts at 0 or at the end of another returned range, never crosses the first note of an onset whose change probability exceeds max_no_change, ends at the end of the piece or at the first note of an onset whose change probability is at least min_change, and never contains two different forced labels at the last notes of its onsets (the last note of the piece apart).", "quantifier": "every change-probability vector, duration vector, forced labels, and threshold setting", "why_tests_cant": "all piece lengths and probability vectors", "anchors": ["harmonic_inference/models/joint_model.py:HarmonicInferenceModel.get_chord_ranges"]}
{"id": "C26", "title": "Chord ranges are complete and not repeated", "statement": "get_chord_ranges returns exactly the ranges (s,e) such that s is reachable from 0 and the segment s..e satisfies the threshold, duration and forced-label conditions, each exactly once, with starts in non-decreasing order.", "quantifier": "every input as in C25", "why_tests_cant": "worklist algorithm over all inputs: completeness and uniqueness cannot be sampled", "anchors": ["harmonic_inference/models/joint_model.py:HarmonicInferenceModel.get_chord_ranges"]}
{"id": "C27", "title": "Chord range log probability", "statement": "The log probability of each returned range equals the sum of the no-change log probabilities of the valid positions strictly inside it plus the change log probability of its end (nothing for the final boundary), so two adjacent ranges minus/plus the stored rejoin term give exactly the merged range's value.", "quantifier": "every input as in C25", "why_tests_cant": "sum over arbitrary length ranges and all splits", "anchors": ["harmonic_inference/models/joint_model.py:HarmonicInferenceModel.get_chord_ranges"]}
{"id": "C28", "title": "No chord range is longer than max_chord_length", "statement": "Every returned range spans inputs whose total duration is at most max_chord_length, and a range that fits within the limit is not excluded because of its length.", "quantifier": "every duration vector and limit", "why_tests_cant": "boundary arithmetic at the beginning and the end of the piece", "anchors": ["harmonic_inference/models/joint_model.py:HarmonicInferenceModel.get_chord_ranges"]}
{"id": "C29", "title": "Forced chord changes are honoured", "statement": "With forced chord changes and non-changes, every forced change index that is a valid position is the boundary of every path through the returned ranges, and no forced non-change index is ever a boundary.", "quantifier": "every set of forced changes and non-changes, every probability vector, every threshold pair with 0 < min_change and max_no_change < 1", "why_tests_cant": "paths and forced sets are unbounded", "anchors": ["harmonic_inference/models/joint_model.py:HarmonicInferenceModel._apply_forced_chord_changes", "harmonic_inference/models/joint_model.py:HarmonicInferenceModel.get_chord_ranges"]}
{"id": "C30", "title": "Forced label validation accepts exactly the consistent requests", "statement": "Forced harmony input is accepted exactly when every index is in bounds, no index is both a forced change and a forced non-change, and adjacent forced labels do not contradict a forced (non-)change; accepted input produces per-note label arrays that contain exactly the forced labels.", "quantifier": "every combination of forced changes, non-changes, chord ids and key ids", "why_tests_cant": "combinatorial input space", "anchors": ["harmonic_inference/models/joint_model.py:HarmonicInferenceModel._validate_and_load_forced_labels"]}
{"id": "C31", "title": "Range length is a signed distance along the score", "statement": "get_range_length equals the difference of the absolute positions of its endpoints on the measure chain; hence it is antisymmetric and additive over intermediate points.", "quantifier": "every measure list connected by next links with offsets, every pair/triple of positions", "why_tests_cant": "arbitrary measure tables with pickups and offsets", "anchors": ["harmonic_inference/utils/rhythmic_utils.py:get_range_length"]}
{"id": "C32", "title": "Metrical levels are nested and periodic", "statement": "For every time signature the beat length divides the measure, the sub-beat divides the beat, the level of a position only depends on it modulo the measure, and a position has level >= k exactly when it is a multiple of the k-th level length. A numerator that is a multiple of 3 and greater than 3 is compound: the beat is then three units of the denominator, otherwise one.", "quantifier": "every time signature n/d with n,d >= 1 and every rational position", "why_tests_cant": "rational positions and time signatures are unbounded", "anchors": ["harmonic_inference/utils/rhythmic_utils.py:get_metrical_level_lengths", "harmonic_inference/utils/rhythmic_utils.py:get_metrical_level"]}
{"id": "C33", "title": "Note offsets are the onset plus the duration", "statement": "add_note_offsets places each note's offset at the absolute position onset+duration on the measure chain, inside a measure (or at the end of the last one).", "quantifier": "every measure chain and every note", "why_tests_cant": "notes may span any number of measures", "anchors": ["harmonic_inference/utils/corpus_utils.py:add_note_offsets"]}
{"id": "C34", "title": "Chord durations tile the chain", "statement": "add_chord_metrical_data gives each chord the onset of the following chord as its offset and a duration equal to the distance between them, so durations add up to the distance from first onset to the end of the piece.", "quantifier": "every list of chords and every measure chain", "why_tests_cant": "lists of any length", "anchors": ["harmonic_inference/utils/corpus_utils.py:add_chord_metrical_data", "harmonic_inference/utils/rhythmic_utils.py:get_range_length"]}
{"id": "C35", "title": "Duration cache tiles the piece", "statement": "ScorePiece.get_duration_cache gives each note the distance to the next note's onset, so partial sums are distances between note onsets and the total is the distance from the first onset to the end.", "quantifier": "every list of notes in time order", "why_tests_cant": "lists of any length", "anchors": ["harmonic_inference/data/piece.py:ScorePiece.get_duration_cache"]}
{"id": "C36", "title": "Chord change indices point at the right notes", "statement": "Each chord's change index is the first note (at or after the previous chord's index) whose onset is not before the chord's onset, or the last note when there is none, and the indices are non-decreasing.", "quantifier": "every pair of sorted chord and note lists", "why_tests_cant": "two-pointer loop over lists of any length", "anchors": ["harmonic_inference/data/piece.py:get_score_piece_from_data_frames"]}
{"id": "C37", "title": "Evaluation accuracies are proper proportions", "statement": "evaluate_chords, evaluate_keys and the joint evaluation return the duration-weighted proportion of the piece with equal labels: always in [0,1], equal to 1 exactly when all inputs with positive duration match; the joint value is at most each of the others, and at least their sum minus 1; coarsening (ignoring inversion, mode or reducing types) never lowers a score.", "quantifier": "every ground truth, every estimate, every duration vector with positive total", "why_tests_cant": "label sequences of any length and all reductions", "anchors": ["harmonic_inference/utils/eval_utils.py:evaluate_chords", "harmonic_inference/utils/eval_utils.py:evaluate_keys", "harmonic_inference/utils/eval_utils.py:evaluate_chords_and_keys_jointly", "harmonic_inference/utils/eval_utils.py:get_chord_distance", "harmonic_inference/utils/eval_utils.py:get_key_distance"]}
{"id": "C38", "title": "Written annotations determine the analysis", "statement": "Reading back the rows of get_annotation_df in order and carrying labels forward reproduces the estimated chord and key label at every input with positive duration, and no row repeats the label already in force.", "quantifier": "every state, piece and duration vector", "why_tests_cant": "run-length encoding over sequences of any length", "anchors": ["harmonic_inference/utils/eval_utils.py:get_annotation_df"]}
{"id": "C39", "title": "Class reduction commutes with encoding", "statement": "reduce_chord_one_hots applied to the index of a chord gives the index of that chord encoded with the reduced type and inversion setting, for every list of indices elementwise, whenever the reduced chord has such an inversion; otherwise it raises ValueError.", "quantifier": "every reduction pair, setting and list of indices", "why_tests_cant": "all reductions and list lengths", "anchors": ["harmonic_inference/data/vector_decoding.py:reduce_chord_one_hots"]}
{"id": "C40", "title": "Reducing chord vectors reduces the chord type", "statement": "reduce_chord_types maps the vector of a chord to the vector of the same chord with the reduced chord type.", "quantifier": "every reduction and every chord vector", "why_tests_cant": "all reductions", "anchors": ["harmonic_inference/data/vector_decoding.py:reduce_chord_types"]}
{"id": "C41", "title": "Chord vector round trip", "statement": "to_vec produces a vector of length get_chord_vector_length(one_hot=False) and decode_chord_vector recovers relative root, type, relative bass, inversion, metrical levels and mode; pitch-type inference from the vector length is unambiguous.", "quantifier": "every chord with pitches in range, every pad/pitch type", "why_tests_cant": "all chords, all (non-one) durations, layout arithmetic", "anchors": ["harmonic_inference/data/chord.py:Chord.to_vec", "harmonic_inference/data/vector_decoding.py:decode_chord_vector", "harmonic_inference/data/vector_decoding.py:infer_chord_vector_pitch_type", "harmonic_inference/data/chord.py:get_chord_vector_length"]}
{"id": "C42", "title": "Key change encoding", "statement": "The key change one-hot index is injective in (interval, next mode) and below the key change vector length; the key change vector has exactly one tonic bit and one mode bit when the interval is in range, and decodes to the same relative tonic.", "quantifier": "every pair of keys", "why_tests_cant": "all pairs of keys", "anchors": ["harmonic_inference/data/key.py:Key.get_key_change_one_hot_index", "harmonic_inference/data/key.py:Key.get_key_change_vector", "harmonic_inference/data/key.py:get_key_change_vector_length", "harmonic_inference/data/vector_decoding.py:decode_key_change_vector"]}
{"id": "C43", "title": "Padding is recoverable", "statement": "pad_array followed by truncation to the recorded lengths returns the original arrays and all padding cells are zero.", "quantifier": "every list of arrays of any lengths", "why_tests_cant": "arbitrary list lengths", "anchors": ["harmonic_inference/data/datasets.py:pad_array"]}
{"id": "C44", "title": "Dataset item numbering is a bijection", "statement": "The transposition datasets enumerate every (item, transposition) pair exactly once, and the key datasets map a global item number to the unique (piece, change) pair.", "quantifier": "every dataset size and transposition range", "why_tests_cant": "arbitrary sizes", "anchors": ["harmonic_inference/data/datasets.py:ChordClassificationDataset.__getitem__", "harmonic_inference/data/datasets.py:KeyHarmonicDataset.get_piece_index"]}
{"id": "C45", "title": "Splits partition the pieces", "statement": "The train/valid/test lists are disjoint, together contain every file id exactly once, and keep each id aligned with its piece, provided the proportions sum to one.", "quantifier": "every list of pieces and all split proportions", "why_tests_cant": "rounding of boundaries for arbitrary proportions", "anchors": ["harmonic_inference/data/datasets.py:get_split_file_ids_and_pieces"]}
{"id": "C46", "title": "Initial chord prior is a distribution", "statement": "train_icm produces for every mode strictly positive probabilities that sum to one, and a more frequent chord never gets a smaller probability.", "quantifier": "every training set and every smoothing constant > 0", "why_tests_cant": "arbitrary training data", "anchors": ["harmonic_inference/models/initial_chord_models.py:SimpleInitialChordModel.train_icm"]}
{"id": "C47", "title": "Joint search output is well formed", "statement": "The state returned by the search tiles the whole piece with segments that are unions of candidate chord ranges, changes key only at chord changes, never lists the same chord twice in a row without a key change, and honours forced chords and keys at the note where each segment begins.", "quantifier": "every probability model, every piece, every parameter setting", "why_tests_cant": "the search explores unboundedly many histories; models are arbitrary functions", "anchors": ["harmonic_inference/models/joint_model.py:HarmonicInferenceModel.beam_search", "harmonic_inference/models/joint_model.py:HarmonicInferenceModel.get_key_change_states"]}
{"id": "C48", "title": "Key transition probability is charged to the right branch", "statement": "When both changing and keeping the key are considered at a chord change, the key-change cost is charged to the changing branch only and the no-change cost to the keeping branch only.", "quantifier": "every state and every key change probability strictly inside the thresholds", "why_tests_cant": "branch accounting over all probabilities", "anchors": ["harmonic_inference/models/joint_model.py:HarmonicInferenceModel.beam_search"]}
{"id": "C49", "title": "Key objects of states do not depend on caching", "statement": "For every state built by the operations of the search, get_key returns the key label of the state's key index, with the label of the initial state's key as its global key, whatever key objects were cached by earlier calls; and it never fails if the initial key is a valid label.", "quantifier": "every reachable state and label list", "why_tests_cant": "The key object is cached and passed on by several kinds of transitions; a stale cache shows only on particular sequences of key changes and rejoins.", "anchors": ["harmonic_inference/utils/beam_search_utils.py: State.get_key, chord_transition, key_transition, rejoin"]}
{"id": "C50", "title": "Every start of a chord range leads to a complete path", "statement": "If no chord or key is forced and no candidate range is over the length limit, then from every start of a range returned by get_chord_ranges there is a chain of returned ranges to the end of the piece. With forced labels there may be none.", "quantifier": "every change-probability vector, duration vector and threshold pair with min_change <= max_no_change", "why_tests_cant": "existence of a path for all inputs of all lengths", "anchors": ["harmonic_inference/models/joint_model.py:HarmonicInferenceModel.get_chord_ranges"]}
{"id": "C51", "title": "Score positions of forces map to first notes", "statement": "convert_score_positions_to_note_indexes maps each position to the index of the first note with that onset and keeps the id; it succeeds exactly when a note has that onset; otherwise it raises ValueError if a later note exists and IndexError if not.", "quantifier": "every list of notes sorted by onset and every list of forces", "why_tests_cant": "binary search over arbitrary sorted lists with ties", "anchors": ["harmonic_inference/utils/forces.py:convert_score_positions_to_note_indexes"]}
{"id": "C52", "title": "Rhythmic information is a proportion of the range", "statement": "For a note in a chain of linked measures, get_rhythmic_info_as_proportion_of_range returns its onset as (position of the note - position of the range start) / range length, its offset as that plus duration / range length, and its duration as duration / range length, whichever end of the range is used for counting and whether the length is given or computed. An empty range raises ZeroDivisionError.", "quantifier": "every measure table with a chain of forward links, every note position, duration and non-empty range (any order)", "why_tests_cant": "the two counting directions must agree for unboundedly many measure layouts and rational positions", "anchors": ["harmonic_inference/utils/rhythmic_utils.py:get_rhythmic_info_as_proportion_of_range"]}
{"id": "C53", "title": "Removing repeats leaves one chain per file", "statement": "remove_repeats links each measure to the latest measure which may follow it (none at the end of a file), and keeps exactly the measures which can be reached from the first measure of their file; what is kept of a file is a linked chain from its first measure to a measure without a link.", "quantifier": "every measures table in order whose chosen links have no loops and lead to measures of the same file; reachable measures are linked forward", "why_tests_cant": "iterated removal over tables of any size and any repeat structure", "anchors": ["harmonic_inference/utils/corpus_utils.py:remove_repeats"]}
{"id": "C54", "title": "Chords within a range are the sounding chords", "statement": "get_chords_within_range returns, in order, exactly the chords which begin before stop and which begin at or after start or go on after start.", "quantifier": "every list of sorted chord change indices (with repetitions) and every start <= stop or open end", "why_tests_cant": "bisection over lists of any length with repeated values", "anchors": ["harmonic_inference/data/piece.py:Piece.get_chords_within_range"]}
{"id": "C55", "title": "Chord note ranges contain the notes which sound", "statement": "The range of a chord begins with the first note which does not begin before the chord or still sounds after its onset, so that all earlier notes are over; it ends at the change index of the next chord (the last one with the last note), and begins at or before the change index of its chord if any note begins at or after the chord.", "quantifier": "every sorted list of notes and chords", "why_tests_cant": "lists of any length with arbitrary held notes", "anchors": ["harmonic_inference/data/piece.py:get_range_start", "harmonic_inference/data/piece.py:get_score_piece_from_data_frames"]}
{"id": "C56", "title": "Chord inputs are windows of the piece with relative onsets", "statement": "The input of a chord has one row for each note of its range and for each place of the window on both sides, in order, and zero rows outside of the piece; the relative onset given to each note is its signed distance from the note at which the chord begins.", "quantifier": "every piece, range, window size and duration cache", "why_tests_cant": "windows of any size over pieces of any length, across both ends", "anchors": ["harmonic_inference/data/piece.py:get_chord_note_input"]}
{"id": "C57", "title": "Merging repeated chords keeps the timeline", "statement": "The merged chord list groups adjacent repeated chords (same pitch type, root, type and optionally inversion and suspension); adjacent groups differ, and each group is one chord with the attributes and onset of its first, the offset of its last, and the sum of the durations.", "quantifier": "every list of chords and both option flags", "why_tests_cant": "groups of any length; the mask compares raw neighbours while the merge mutates the kept chord", "anchors": ["harmonic_inference/data/piece.py:get_reduction_mask", "harmonic_inference/data/piece.py:get_score_piece_from_data_frames", "harmonic_inference/data/chord.py:Chord.is_repeated", "harmonic_inference/data/chord.py:Chord.merge_with"]}
{"id": "C58", "title": "Copies and hidden states", "statement": "A copy of a state has the same chain, key, chord, hash and hidden states; right after a chord transition or a rejoin it equals the original, so both branches of a key decision start from the same state. A chord transition goes on with the hidden states of its state, and a key transition takes the key models back to their hidden states before the last chord, whatever they wrote since.", "quantifier": "every reachable state, every sequence of model charges and writes of hidden states", "why_tests_cant": "histories of any length with arbitrary hidden states", "anchors": ["harmonic_inference/utils/beam_search_utils.py:State.copy", "harmonic_inference/utils/beam_search_utils.py:State.chord_transition", "harmonic_inference/utils/beam_search_utils.py:State.key_transition", "harmonic_inference/utils/beam_search_utils.py:State.rejoin"]}
{"id": "C59", "title": "Label strings are unambiguous", "statement": "No two chord classes (with inversions, absolute roots) and no two key classes share a label string, although minor tonics are printed in lower case.", "quantifier": "every pair of class indices, both pitch types", "why_tests_cant": "1470 chord classes and 70 key classes pairwise", "anchors": ["harmonic_inference/utils/harmonic_utils.py:get_chord_label_list", "harmonic_inference/utils/harmonic_utils.py:get_key_label_list"]}
{"id": "C60", "title": "Removing inversions from vectors", "statement": "remove_chord_inversions turns the vector of every chord in a tensor into the vector of the same chord with inversion 0, and changes no other entry of the rows.", "quantifier": "every tensor of chord vectors, with any entries after them", "why_tests_cant": "tensors with any number of rows and any chords", "anchors": ["harmonic_inference/data/vector_decoding.py:remove_chord_inversions", "harmonic_inference/data/vector_decoding.py:get_chord_vector_inversion_index"]}
{"id": "C61", "title": "Datasets reduce the chord part of their inputs", "statement": "The reductions of chord types and inversions called by the chord and key sequence datasets on their inputs (rows of chord vector, key change vector and key change bit, without a pitch type) change the chord part of every row.", "quantifier": "every dataset row, pitch types of chords and keys, every reduction", "why_tests_cant": "all rows and reductions", "anchors": ["harmonic_inference/data/vector_decoding.py:reduce_chord_types", "harmonic_inference/data/vector_decoding.py:remove_chord_inversions", "harmonic_inference/data/vector_decoding.py:infer_chord_vector_pitch_type", "harmonic_inference/data/datasets.py:ChordSequenceDataset.reduce", "harmonic_inference/data/datasets.py:KeyHarmonicDataset.reduce"]}
{"id": "C62", "title": "Sequence rows can be read back", "statement": "decode_chord_and_key_change_vector, given the pitch type of the chords or of the keys, returns the chord of a dataset row and its key change: none inside of a key, the interval and the mode at the first chord of a key (for intervals within range). A key change vector without the key change bit is a ValueError.", "quantifier": "every chord, key change, padding and pitch type", "why_tests_cant": "all chords and key pairs", "anchors": ["harmonic_inference/data/vector_decoding.py:decode_chord_and_key_change_vector", "harmonic_inference/data/vector_decoding.py:decode_key_change_vector", "harmonic_inference/data/vector_decoding.py:decode_chord_vector", "harmonic_inference/data/datasets.py:ChordSequenceDataset"]}
{"id": "C63", "title": "MIDI note numbers", "statement": "get_midi_note_number is 12 times the octave plus the semitone class of the pitch.", "quantifier": "every pitch and octave, both pitch types", "why_tests_cant": "all octaves", "anchors": ["harmonic_inference/data/note.py:Note.get_midi_note_number"]}
{"id": "C64", "title": "Transposed note vectors", "statement": "transpose_note_vector moves the pitch bit of the vector of a note by the interval and changes nothing else; a ValueError is raised if the new pitch is out of range.", "quantifier": "every note vector and interval", "why_tests_cant": "all notes and intervals", "anchors": ["harmonic_inference/data/vector_decoding.py:transpose_note_vector"]}
{"id": "C65", "title": "Note vectors can be read back", "statement": "The vector of a note has the announced length and one bit for each of pitch, octave, onset level and offset level, from which decode_note_vector returns them. The other entries are its place in the chord, the distances to its neighbours, whether it is the lowest pitch, its octave above the lowest one (one bit), its note number over 127, and its height between lowest and highest pitch, which lies between 0 and 1.", "quantifier": "every note", "why_tests_cant": "all notes", "anchors": ["harmonic_inference/data/note.py:Note.to_vec", "harmonic_inference/data/note.py:get_note_vector_length", "harmonic_inference/data/vector_decoding.py:decode_note_vector"]}
{"id": "C66", "title": "Datasets survive h5 files", "statement": "Writing a dataset with to_h5 and loading it with h5_to_dataset returns the same inputs (and targets), for every chunk size.", "quantifier": "every list of arrays and every chunk size", "why_tests_cant": "arbitrary numbers and lengths of arrays", "anchors": ["harmonic_inference/data/datasets.py:HarmonicDataset.pad", "harmonic_inference/data/datasets.py:HarmonicDataset.to_h5", "harmonic_inference/data/datasets.py:h5_to_dataset"]}
{"id": "C67", "title": "Items of the key datasets", "statement": "Item k of a piece in a key dataset holds the rows of the piece up to the key change, then the replacement row of the change (if any), with the matching length and targets (for transitions: 1 at the change, 0 between the previous change and this one, -100 elsewhere). Reading an item does not change the dataset.", "quantifier": "every dataset and every item of it", "why_tests_cant": "arbitrary numbers of pieces and key changes; the longest piece takes another path", "anchors": ["harmonic_inference/data/datasets.py:KeyHarmonicDataset.__getitem__"]}
{"id": "C68", "title": "Contents of the key datasets", "statement": "The key datasets hold for every chord of a piece (up to the last key change for key sequences) its vector and, exactly at key changes, the vector of the change; one replacement for each key change: the chord at the change relative to the key before it; and the right lengths and targets.", "quantifier": "every piece with any number of keys", "why_tests_cant": "arbitrary numbers of keys and chords", "anchors": ["harmonic_inference/data/datasets.py:KeyTransitionDataset.__init__", "harmonic_inference/data/datasets.py:KeySequenceDataset.__init__"]}
{"id": "C69", "title": "Loading the initial chord model", "statement": "A loaded initial chord model has, for the requested chord types and inversions, the sums of the probabilities of the chords in the file that are reduced to each class.", "quantifier": "every data file, reduction and use of inversions", "why_tests_cant": "all reductions and distributions", "anchors": ["harmonic_inference/models/initial_chord_models.py:SimpleInitialChordModel.__init__"]}
{"id": "C70", "title": "The initial chord model guesses the majority", "statement": "On the pieces whose first chords it was trained with, the accuracy returned by evaluate is at least that of any fixed guess of one chord for each mode.", "quantifier": "every list of training pieces and every smoothing constant > 0", "why_tests_cant": "arbitrary training data", "anchors": ["harmonic_inference/models/initial_chord_models.py:train_icm", "harmonic_inference/models/initial_chord_models.py:SimpleInitialChordModel.evaluate"]}
{"id": "C71", "title": "Branching reaches the target probability", "statement": "The search branches on the fewest most probable chord (or key) classes whose probabilities together reach the target, but on no more than the maximum branching factor. Chords are taken in order of probability (with one more than that number if the number is one and the first chord is that of the state). Of the keys only those count that the state can move to and is not in; one of them is left out only if the number is used up by keys that come before it.", "quantifier": "every distribution, target and maximum", "why_tests_cant": "all distributions and targets", "anchors": ["harmonic_inference/models/joint_model.py:HarmonicInferenceModel.beam_search", "harmonic_inference/models/joint_model.py:HarmonicInferenceModel.get_key_change_states"]}
{"id": "C72", "title": "The quick exit loses nothing", "statement": "A range that the search skips early for a state could not have put any state into the beam at the end of the range.", "quantifier": "every state, range and beam", "why_tests_cant": "arbitrary scores and beams", "anchors": ["harmonic_inference/models/joint_model.py:HarmonicInferenceModel.beam_search"]}
{"id": "C73", "title": "Stopping at the first chord that does not fit loses nothing", "statement": "If a state made with one chord does not fit into the beam, no state made with a later (less probable) chord on the same range fits either.", "quantifier": "every state, range and beam", "why_tests_cant": "arbitrary scores and beams", "anchors": ["harmonic_inference/models/joint_model.py:HarmonicInferenceModel.beam_search"]}
{"id": "C74", "title": "The table of results says what is right", "statement": "get_results_df has one row for each input with a duration, in order. The texts of a row are the names of the chords and keys (of the piece and estimated) that cover the input, converted to the pitch types asked for. The two chord texts (key texts) of a row are equal exactly if the converted roots (tonics), types and inversions (modes) are. Without conversion, the durations of the rows with equal texts add up to the accuracy of evaluate_chords, evaluate_keys and evaluate_chords_and_keys_jointly times the whole duration. A row that is right in TPC pitches is right in MIDI pitches.", "quantifier": "All pieces whose chords and keys begin at the first input, all estimates that tile the inputs, all supported conversions of pitch types.", "why_tests_cant": "The table and the accuracies are computed by separate code; the label strings are compared, so that two different labels with the same string would count as right. Tests look at some pieces, not at all label pairs and all tilings.", "anchors": ["harmonic_inference/utils/eval_utils.py:get_results_df", "harmonic_inference/utils/harmonic_utils.py:get_chord_label_list", "harmonic_inference/utils/harmonic_utils.py:get_key_label_list"]}
{"id": "C75", "title": "The coloured table of labels can be read", "statement": "At every input with a duration, the latest key row and chord row of get_label_df have the colour of the input (green: right, yellow: right tonic, or right root and triad, red: wrong), the latest ones that are not `--` name the estimated key and chord, and a row is there only if a label of its kind has changed since the input before. The table tells which rows are about keys.", "quantifier": "All pieces, all estimates that tile the inputs, all positions.", "why_tests_cant": "Four label sequences that change at different inputs, and inputs without duration in between, give many interleavings; a test of a few pieces sees few of them.", "anchors": ["harmonic_inference/utils/eval_utils.py:get_label_df"]}
{"id": "C76", "title": "Chord changes are read as pitches", "statement": "get_added_and_removed_pitches maps each change of a change string (a suspension or addition such as 4, b9, ^2, +6) to the pitch it adds: as many steps above the root as its number says, in the scale of the key up to the accidentals, marked with + from the eighth on; under the key of the tone it replaces: the tone of the chord one step below (2, 4, 6, v), one step above (sharp, ^), or none (additions). Every change has its entry.", "quantifier": "All chord types and roots with all tones in range, all keys, all sequences of changes.", "why_tests_cant": "Change strings are concatenated without separators and combined freely with 12 chord types, 35 roots and 70 keys; the result is a dictionary, in which entries can overwrite each other. Tests cover a few common strings.", "anchors": ["harmonic_inference/utils/harmonic_utils.py:get_added_and_removed_pitches", "harmonic_inference/utils/harmonic_utils.py:split_changes_into_list"]}
{"id": "C77", "title": "The table of labels shows the chords and keys of the piece", "statement": "get_labels_df has one row for each input with a duration, in order, with its onset and duration and with root, type, inversion and changes of the chord and tonic and mode of the key that cover it. The TPC columns have C at the number asked for, the MIDI columns are the pitch classes of the same pitches. A chord with changes has one entry for each change.", "quantifier": "All pieces with TPC chords and keys that begin at the first input, all change strings that can be read, all positions of C.", "why_tests_cant": "The labels go through indices of label lists and arrays filled by slices; an index that is off by one label, or a slice off by one input, shows only in some rows of some pieces.", "anchors": ["harmonic_inference/utils/eval_utils.py:get_labels_df"]}
{"id": "C78", "title": "Chords and keys are read from table rows as annotated", "statement": "Key.from_series gives the global tonic named in the row, the local key reached from it by the local key numerals, and the relative key reached from that by the relative root (the local key if there is none), or None if one of these is not a pitch. Chord.from_series gives None for a row without a numeral, without a readable key, type or figured bass, with a root or bass out of range or with a position in no (or no unique) measure; otherwise a chord whose root is the annotated interval above the local tonic, whose inversion is in the range of its type, whose bass is that tone of the chord (the root without inversions), with key, positions, metrical levels and duration of the row. Reading with MIDI pitches gives the same as reading with TPC pitches and converting. The level cache never changes a result.", "quantifier": "All rows, measure tables, pitch types, reductions, flags and caches that are correct (such as the empty one).", "why_tests_cant": "A wrong key, transposition or inversion gives another valid chord; a cache fault shows only when two time signatures share a beat; MIDI and TPC paths differ only for some spellings.", "anchors": ["harmonic_inference/data/chord.py:Chord.from_series", "harmonic_inference/data/key.py:Key.from_series"]}
{"id": "C79", "title": "The keys of a piece agree with its chords", "statement": "get_score_piece_from_data_frames: the keys and key changes of an annotated piece have the same length, the first key begins at the first chord, the changes increase and lie within the chords, adjacent keys differ in tonic or mode, and at each chord the key in force has the tonic and mode the chord was read with. The function succeeds for every table and each annotated key occurs.", "quantifier": "All tables of rows, measure tables, reductions, flags and correct caches.", "why_tests_cant": "Two nested run-length masks are indexed into one another; an error of one position shows only when key columns change without changing the key, or when repeated chords are merged at a key change.", "anchors": ["harmonic_inference/data/piece.py:get_score_piece_from_data_frames"]}
{"id": "C80", "title": "Measures of a MusicXML score follow one another", "statement": "get_measures_df_from_music21_score gives one row per measure that is not in a first ending, in order. Each begins where the one before it ends, its metrical offset goes on from the one before (modulo the time signature), a new time signature begins on a downbeat, and every offset lies in [0, time signature). The first measure ends on a downbeat, so that a pickup is placed at the end of a measure. In a score without gaps each row has the length of its measure. The rows are linked by next, and positions in the table are the starts. Every score has such a table.", "quantifier": "All lists of measures with positive time signatures and all first endings.", "why_tests_cant": "The loop carries the time signature, its epoch, the skipped time and writes back into the previous row; faults need pickups, repeats and changes of metre together.", "anchors": ["harmonic_inference/data/piece.py:get_measures_df_from_music21_score"]}
{"id": "C81", "title": "Labels lie where their times say", "statement": "For a label from on to off, Chord.from_labels_csv_row gives as onset and offset the positions of on and off: each in the last measure that has begun, at the beat on − start after its metrical offset. Both are on − start₀ and off − start₀ after the beginning of the table; get_range_length of onset and offset is the duration off − on; the metrical levels are those of the beats in the time signatures of their own measures. A label before the first measure raises an IndexError.", "quantifier": "All tables made from scores and all times not before the first measure.", "why_tests_cant": "A wrong boundary shows only for labels exactly on barlines; a level in the wrong time signature only when the label crosses a change of metre.", "anchors": ["harmonic_inference/data/chord.py:Chord.from_labels_csv_row", "harmonic_inference/utils/rhythmic_utils.py:get_range_length"]}
{"id": "C82", "title": "Notes of a MusicXML score end their duration after their onset", "statement": "Note.from_music21: a note that begins start after the beginning of its measure has the onset beat start after the metrical offset of the measure and mc_onset = start; its offset position is its onset plus its duration, in the measure in which that lies (or the last one).", "quantifier": "All tables made from scores, all measures, starts and durations.", "why_tests_cant": "The offset is wrong only if measures with different metrical offsets are involved (pickups), where the score still looks plausible.", "anchors": ["harmonic_inference/data/note.py:Note.from_music21"]}
{"id": "C83", "title": "Labels of MusicXML scores are read as the chords they name", "statement": "Key.from_labels_csv_row and Chord.from_labels_csv_row: the local key is the named pitch (upper case major, lower case minor); a relative root lies on that degree of the major or harmonic minor scale of the local key, with its accidentals, and has the mode listed for it; the root of the chord lies on its degree of the key so found; the chord has the type its symbol names, the positions, levels and duration of C81, and is given exactly if root and bass are pitches. The bass is the chord tone that type and inversion say. A chord read with MIDI pitches is the converted chord read with TPC pitches.", "quantifier": "All letters, numbers of accidentals, degrees, types, inversions, measure tables and times.", "why_tests_cant": "Minor keys have two special cases for the sixth and seventh degree, one of which differs between the two functions; the combinations with accidentals are unbounded.", "anchors": ["harmonic_inference/data/key.py:Key.from_labels_csv_row", "harmonic_inference/data/chord.py:Chord.from_labels_csv_row"]}
{"id": "C84", "title": "Pieces from MusicXML scores hold the chords and keys of their labels", "statement": "get_score_piece_from_music_xml: exactly the labels with a duration that do not begin before the score are used, with times in whole notes. A piece is made exactly if there is such a label and all of them can be read. Its chords are those of the labels in order; labels in order give onsets in order; each chord begins at the first note that does not begin before it (the last note if all do), and its range goes from the first note that still sounds to the beginning of the next chord. Adjacent keys differ, the first begins at the first chord, all have the global key of the first label, and the key in force at each chord is the one the chord was read with.", "quantifier": "All measure tables as made by C80, all lists of notes in order and all lists of labels.", "why_tests_cant": "Filters, two indices into notes, and a run-length mask over keys are combined; errors need labels with no duration, labels between notes or relative keys that equal the next local key.", "anchors": ["harmonic_inference/data/piece.py:get_score_piece_from_music_xml"]}
{"id": "C85", "title": "Notes of MusicXML scores lie in their own measures", "statement": "get_notes_from_music_xml: the notes are those of the measures in the table, in order, each with its duration and at its time after the beginning of its own measure. If the notes of each measure are in order, all are.", "quantifier": "All measure tables as made by C80, all lists of measures with notes.", "why_tests_cant": "Measures are identified by their number, which differs from their index only in scores with pickups, repeats or divided measures.", "anchors": ["harmonic_inference/data/piece.py:get_notes_from_music_xml"]}
{"id": "C86", "title": "Transposed training data of the chord classifier stay consistent", "statement": "ChordClassificationDataset.reduce: after a transposition, the target is the class of the transposed and reduced chord; root, bass and pitches of the intermediate targets are those of that chord; the notes that are read are transposed by the same interval, padding and empty vectors stay as they are. If the transposed chord does not exist, the data point is marked as unusable as a whole (-1 for target, length, root and bass; zero inputs and pitches). Without a transposition the inputs stay as they are.", "quantifier": "All intervals, pitch types, idempotent reductions, settings of inversions, chords and lists of note vectors.", "why_tests_cant": "Random transpositions of random chords; the failing cases need roots or notes near the end of the range.", "anchors": ["harmonic_inference/data/datasets.py:ChordClassificationDataset.reduce", "harmonic_inference/data/datasets.py:ChordClassificationDataset.generate_intermediate_targets"]}
{"id": "C87", "title": "The pitch-based chord sequence model is trained on and read at the pitches of chords", "statement": "ChordSequenceDataset.reduce with pitch_based: the row of a chord marks the pitches of the chord relative to the tonic (spelled pitches from -14) and nothing else; rows of the first chord, of key changes and of the padding are -100 and are the only ones left out of training. State.add_csm_prior gives a chord the likelihood of its row.", "quantifier": "All chord classes, pitch types, reductions and settings; all probabilities.", "why_tests_cant": "Two places of the code must agree on a numbering; tests with one of them cannot see it.", "anchors": ["harmonic_inference/data/datasets.py:ChordSequenceDataset.reduce", "harmonic_inference/utils/beam_search_utils.py:State.add_csm_prior", "harmonic_inference/models/chord_sequence_models.py:PitchBasedChordSequenceModel.training_step"]}
{"id": "C88", "title": "The search gives its models the rows they were trained on", "statement": "get_csm_input, get_ktm_input and get_ksm_input of a state reached by the search: each row is the row that the sequence datasets make for this chord: root, chord type, inversion and bass of its label, relative to the key of the state, with the levels and the duration between the change indices of this state and the one before, and with the key change vector exactly if the key differs from that of the state before. The KSM gets the rows of all states since the last one at which its hidden state changed, oldest first. Such a row decodes to the chord and the key change it was made from.", "quantifier": "All tables of labels, pitch types, caches and states reached by any sequence of transitions.", "why_tests_cant": "States of long searches; an error of one row changes probabilities only.", "anchors": ["harmonic_inference/utils/beam_search_utils.py:State.get_csm_input", "harmonic_inference/utils/beam_search_utils.py:State.get_ktm_input", "harmonic_inference/utils/beam_search_utils.py:State.get_ksm_input", "harmonic_inference/utils/beam_search_utils.py:State.get_chord", "harmonic_inference/utils/beam_search_utils.py:State.get_key"]}
{"id": "C89", "title": "Every recurrent model has seen every chord of the result exactly once, in order", "statement": "Joint model search: in the chain of the returned state, the hidden state of the KTM in each node is that after the rows of all chords up to it in their final keys; the hidden state and the prior of the CSM are those after the rows of all chords up to it (the newest node has those of the node before; the prior of the first node is that of the ICM for its mode); the hidden state of the KSM is that after the rows of all chords up to the last key change. A chord in a new key is charged what the KSM gives to the relative key after all chords before and this one in the old key, times the length, and no CSM cost; a chord in the same key is charged the CSM cost with the prior after the chords before, and no KSM cost.", "quantifier": "All searches: beams, ranges, forced labels, labels and networks (any step function of hidden state and row), also with rejoined chords and hidden states that come back to an earlier value.", "why_tests_cant": "Interleaving of three networks over batches of states that are copied, rejoined and dropped; the wrong order changes probabilities only.", "anchors": ["harmonic_inference/models/joint_model.py:HarmonicInferenceModel.beam_search", "harmonic_inference/models/joint_model.py:HarmonicInferenceModel.get_key_change_states", "harmonic_inference/models/joint_model.py:HarmonicInferenceModel.run_csm_batched", "harmonic_inference/models/joint_model.py:HarmonicInferenceModel.get_key_change_probs", "harmonic_inference/utils/beam_search_utils.py:State.get_ksm_input"]}
{"id": "C90", "title": "States are run in batches without mixing, on inputs prepared as in training", "statement": "get_key_change_probs, get_key_change_states and run_csm_batched: whatever the batch size, the padding and the lengths of the inputs, each state gets the output and the new hidden state of the network for its own rows and its own hidden state, in the order of the states. The inputs are reduced (chord types, inversions) as the datasets the model was trained on.", "quantifier": "All lists of states, batch sizes, inputs, networks and settings of models.", "why_tests_cant": "Batches are full only with many states; the reduction needs models trained with other settings.", "anchors": ["harmonic_inference/models/joint_model.py:HarmonicInferenceModel.get_key_change_states", "harmonic_inference/models/joint_model.py:HarmonicInferenceModel.get_key_change_probs", "harmonic_inference/models/joint_model.py:HarmonicInferenceModel.run_csm_batched", "harmonic_inference/data/datasets.py:KeyHarmonicDataset.reduce", "harmonic_inference/models/key_sequence_models.py:KeySequenceModel.get_output"]}
{"id": "C91", "title": "The notes of a piece are those of its score", "statement": "Note.from_series gives, for every row of a note table, the note with the row's spelling, octave, positions, metrical levels and duration, or None exactly if the spelling is out of range or a position has no measure; a piece has these notes in order, with the numbers of their rows, whatever is in the cache of levels. The MIDI number of a note is that of its score, whether it was loaded from a table or from MusicXML. Conversion to MIDI pitches keeps the sounding pitch class.", "quantifier": "All tables, caches, rows, scores and spellings.", "why_tests_cant": "Octave errors need B sharp or C flat, and a comparison of two loaders on the same piece.", "anchors": ["harmonic_inference/data/note.py:Note.from_series", "harmonic_inference/data/note.py:Note.from_music21", "harmonic_inference/data/note.py:Note.to_pitch_type", "harmonic_inference/data/note.py:Note.get_midi_note_number", "harmonic_inference/data/piece.py:get_score_piece_from_data_frames"]}
{"id": "C92", "title": "Pieces survive their dictionaries and are loaded under their own ids", "statement": "The piece made from to_dict() of a piece has the same notes, chords, keys and indices. Pieces of a split that create_h5_data.py writes as dictionaries are loaded by load_pieces, with the file ids of the split, as the pieces of these files; with a specific id, only that piece. Scores are loaded with their own labels.", "quantifier": "All pieces, tables, splits, shuffles, directories of scores and ids.", "why_tests_cant": "Misaligned lists give pieces that look right but belong to another file; tests use one fully labelled directory.", "anchors": ["harmonic_inference/utils/data_utils.py:load_pieces", "harmonic_inference/data/piece.py:ScorePiece.to_dict", "harmonic_inference/data/piece.py:get_score_piece_from_dict", "harmonic_inference/data/note.py:Note.to_dict", "harmonic_inference/data/chord.py:Chord.to_dict", "harmonic_inference/data/key.py:Key.to_dict"]}
{"id": "C93", "title": "The chord classifier sees each chord's notes in their place", "statement": "get_chord_note_inputs gives one matrix for each chord, with one row for each note of its range and for `window` places on both sides, zeros outside of the piece. The row of a note has its spelling, octave and levels; where the note begins and ends and how long it is, with the chord from 0 to 1; the distances to its neighbours; and its place between the lowest and the highest note of the window. This holds for chords given by notes (search) and for labels (training), whether or not a chord begins with a note.", "quantifier": "All scores, positions, chords, ranges, change indices and windows of at least 1.", "why_tests_cant": "The two ways to compute a position (from a cache, from the measures) differ only for chords that begin between notes; tests compare shapes on a few pieces.", "anchors": ["harmonic_inference/data/piece.py:get_chord_note_input", "harmonic_inference/data/piece.py:ScorePiece.get_chord_note_inputs", "harmonic_inference/data/note.py:Note.to_vec", "harmonic_inference/utils/rhythmic_utils.py:get_rhythmic_info_as_proportion_of_range"]}
{"id": "C94", "title": "Merging ties keeps every note exactly once", "statement": "merge_ties ends without an exception. The frame it returns is sorted by its index, without an index twice, and contains grace notes and notes without a tie as they were; the other notes are divided into chains, each of them at one pitch of one piece with every note starting where the one before ends, and each chain becomes its first note with the duration of the whole chain and the end of its last note. So the total duration at every pitch of every piece stays the same.", "quantifier": "All note frames with distinct indexes and tied values 1, 0, -1 or null, and every order in which the merges list their rows.", "why_tests_cant": "The loop updates three frames through two indexes in up to four steps; whether it ends, and whether it drops or duplicates a note, depends on all coincidences of pitches, ends and starts. The test has four hand-made pieces.", "anchors": ["harmonic_inference/utils/corpus_utils.py:merge_ties"]}
{"id": "C95", "title": "Ties are closed where they can be", "statement": "After merge_ties, a chain that starts with tied 1 has no tie if it was ended by a -1 and tied 1 otherwise; a chain that starts with tied 0 has tied -1 if it reached a -1 and 0 otherwise; a -1 that starts a chain stays as it is. Where a note is left with tied 1 or 0, no note tied into is left at its end.", "quantifier": "All note frames with distinct indexes and tied values 1, 0, -1 or null, and every order in which the merges list their rows; for notes left with tied 0, frames in which tied notes end after they start.", "why_tests_cant": "Whether a match is missed depends on the order in which notes are made tied out and removed over the rounds; the test has four hand-made pieces.", "anchors": ["harmonic_inference/utils/corpus_utils.py:merge_ties"]}
{"id": "C96", "title": "Ties of well-formed scores are merged as they are written", "statement": "If every note tied out of is followed by exactly one note tied into at its end in the same staff and voice, and every note tied into follows exactly one note tied out of, merge_ties merges exactly the ties as they are written: each from the note with tied 1 over those with tied 0 to the note with tied -1, within one staff and voice, also where other staves and voices hold the same pitch at the same time. The result has no ties, and one note for every note with tied 1.", "quantifier": "All such frames, with any number of voices at the same pitch, and every order in which the merges list their rows.", "why_tests_cant": "Notes matched once are joined before staff and voice are looked at, and the rest is dropped or forced by arbitrary order; that none of this joins notes of different voices depends on the history of all rounds.", "anchors": ["harmonic_inference/utils/corpus_utils.py:merge_ties"]}
{"id": "C97", "title": "Notes of a loaded corpus", "statement": "If the tables of a corpus are well-formed, load_clean_corpus_dfs returns the first `count` files (all without a count) but the piece which is left out, the measures of a walk without repeats through each of these files, and notes such that: each is a note of the table which starts inside of a measure of the walk and ends as long after its start as it lasts; notes without ties are as in the table; and for each file and pitch, the notes last as long together as the valid notes of the table.", "quantifier": "All tables whose indexes are in order, whose measures are linked without cycles and whose valid notes end inside of their files; every order in which merges list their rows.", "why_tests_cant": "Six cleaning steps over four tables with positional masks and merges; each test would look at one corpus, and the alignment of mask and rows shows only where rows of several files are removed.", "anchors": ["harmonic_inference/data/corpus_reading.py:load_clean_corpus_dfs"]}
{"id": "C98", "title": "Chords of a loaded corpus", "statement": "If the tables are well-formed and the chords are in order, load_clean_corpus_dfs returns exactly the chords with a numeral which start inside of a measure of the walk, but only the last one of those at one place; each ends where the next one of its file starts, the last one at the end of its file, and its duration is positive and the distance between the two.", "quantifier": "All such tables with valid chords in at least two files, any number of files, measures, chords without numerals or at the same place.", "why_tests_cant": "Durations are computed before chords without a duration are removed, so that the next chord of the result is not the one which has been used; wrong links between files show only at the boundaries of files.", "anchors": ["harmonic_inference/data/corpus_reading.py:load_clean_corpus_dfs", "harmonic_inference/utils/corpus_utils.py:add_chord_metrical_data"]}
{"id": "C99", "title": "Tables of an aggregated corpus", "statement": "aggregate_annotation_dfs writes nothing if no file is found; otherwise files.tsv holds each of the files under its number, and the other three tables hold exactly the rows of the tables of the files which can be read, in order, under the number of the file in files.tsv and the number of the row, whichever other tables cannot be read.", "quantifier": "All lists of found files, with any subset of their tables missing or unreadable.", "why_tests_cant": "The numbers are appended in other places of the loop than the tables, and aligned by position only; a shift shows only after a file one of whose tables cannot be read.", "anchors": ["harmonic_inference/data/corpus_reading.py:aggregate_annotation_dfs"]}
{"id": "C100", "title": "Chords of the harmony of a piece", "statement": "The chords of the state returned by get_harmony tile the piece, neighbouring chords differ, and every chord begins at the first note of an onset. There is no chord change at a forced non-change and a chord change at every forced change. Every note with a forced chord has that chord, and the chord does not change between two notes with the same forced chord.", "quantifier": "All pieces, forced labels with non-negative indices, networks (arbitrary functions), beam sizes, hash lengths and probability bounds 0 < min <= max < 1.", "why_tests_cant": "The result goes through validation, the search for ranges and the beam search with pruning, rejoining and forced labels; a violated forced label shows only for special combinations of labels at the end of a piece or on both sides of a change.", "anchors": ["harmonic_inference/models/joint_model.py:HarmonicInferenceModel.get_harmony", "harmonic_inference/models/joint_model.py:HarmonicInferenceModel.get_chord_ranges", "harmonic_inference/models/joint_model.py:HarmonicInferenceModel.beam_search"]}
{"id": "C101", "title": "Keys of the harmony of a piece", "statement": "The key of a chord of the state returned by get_harmony is the forced key of its notes, the key changes at every forced key change, and it does not change at a forced key non-change.", "quantifier": "All pieces, forced labels with non-negative indices, networks (arbitrary functions) and parameters.", "why_tests_cant": "A forced key change which is ignored shows only if the networks do not suggest it anyway.", "anchors": ["harmonic_inference/models/joint_model.py:HarmonicInferenceModel.get_harmony", "harmonic_inference/models/joint_model.py:HarmonicInferenceModel._validate_and_load_forced_labels"]}
{"id": "C102", "title": "Forced changes are read where they are written", "statement": "The four lists of forced (non-)changes that extract_forces_from_musescore returns are the positions of the labels and lyrics that say !C, =C, !K and =K, in the order of the labels and then of the lyrics. Labels with other commands (forced chords and keys) or with other text are not taken for one of them.", "quantifier": "All scores whose labels and lyrics are single commands or texts without = and !, whenever forces are returned.", "why_tests_cant": "The four regular expressions are searched in all labels, and those of forced chords and keys contain the same characters (C=, K=); whether one expression is found in the label of another command has to be checked for all roots, types and inversions.", "anchors": ["harmonic_inference/utils/forces.py:extract_forces_from_musescore"]}
{"id": "C103", "title": "Forced chords are read as written", "statement": "A label C=<root><type>[_<inversion>] with a root from A to G (or a to g) with up to two accidentals, any of the twelve chord types and an inversion that the type has (root position if it is left out) is returned as the id of that chord at its position, in order.", "quantifier": "All scores whose labels and lyrics are single commands or texts without = and !.", "why_tests_cant": "The result depends on the order in which the alternatives of a regular expression are tried; tests with a few triads with inversions pass.", "anchors": ["harmonic_inference/utils/forces.py:extract_forces_from_musescore"]}
{"id": "C104", "title": "Forced keys are read as written", "statement": "A label K=<tonic> is returned as the id of the major key of the tonic if its letter is a capital letter, of the minor key otherwise, at its position and in order.", "quantifier": "All scores whose labels and lyrics are single commands or texts without = and !, whenever forces are returned.", "why_tests_cant": "b is a letter and an accidental: bb is B flat minor and bbb has to be the key of b with two flats; all spellings have to be right.", "anchors": ["harmonic_inference/utils/forces.py:extract_forces_from_musescore"]}
{"id": "C105", "title": "Columns of tables are read as they are written", "statement": "The converters of the columns of the corpus tables undo the way the columns are written: integers joined with \", \" are read as those integers in order by str2inttuple, the empty string and every string with a part between \", \" that is no integer as the empty tuple; an integer is read as whether it is not zero by int2bool; n/d and decimal numbers are read as the same fraction by str2frac; the empty string and a zero denominator are read as the missing value. int accepts exactly groups of digits joined by single underscores, with an optional sign and white space around, and gives the number of all digits.", "quantifier": "All lists of integers of all lengths, all fractions and all strings with the stated form.", "why_tests_cant": "Lengths of the lists, numbers of digits and white space are unbounded.", "anchors": ["harmonic_inference/data/corpus_constants.py:str2inttuple", "harmonic_inference/data/corpus_constants.py:int2bool", "harmonic_inference/data/corpus_constants.py:str2frac"]}
{"id": "C106", "title": "Forces are loaded from json files as written", "statement": "load_forces_from_json of a file that maps names of pieces to forces returns, for each name, the listed changes and non-changes and the forced chords and keys with their ranges (start, end) as tuples of integers. A file with the forces themselves is loaded as the entry default; its other entries have no effect.", "quantifier": "All files in which each range is written once, as str((start, end)) or with another number of spaces after the comma.", "why_tests_cant": "Ranges are parsed from strings by slicing and splitting, and forces are recognised by the names of entries; numbers of digits, pieces and ranges are unbounded.", "anchors": ["test.py:load_forces_from_json"]}
{"id": "C107", "title": "The forces of a piece are those of its name", "statement": "evaluate uses for each piece the forces of the key of the json file that names the piece, the forces default if there is none, and no forces if there is no default.", "quantifier": "All json files, names of pieces and orders of iteration of the set of keys.", "why_tests_cant": "Sets of strings are iterated in an order that differs between runs of Python; each single run may give the expected result.", "anchors": ["test.py:evaluate"]}
{"id": "C108", "title": "The outputs of each piece are in its own files", "statement": "After evaluate, the labels, the results and the MIDI results of each piece for which a harmony was found are in three files of its own, in the folder according to its name; after annotate, the labels of each piece are in a file of its own.", "quantifier": "All lists of pieces with distinct paths, all output directories, with and without outputs for some of them.", "why_tests_cant": "Whether files are written over depends on all pairs of names in a run; the tests have no output files.", "anchors": ["test.py:evaluate", "annotate.py:annotate"]}
{"id": "C109", "title": "Keyword arguments are loaded from json files as written", "statement": "load_kwargs_from_json of a file in which enums are written with str returns the same keyword arguments: pitch types and piece types in any field, reductions of chord types in fields called reduction, all other fields unchanged; an empty dictionary without a path.", "quantifier": "All sets of fields in which other strings do not begin like an enum and mappings in other fields are not called reduction.", "why_tests_cant": "The members are found by slicing at a fixed length and looking up in an enum; all members of all enums and all sets of fields have to agree.", "anchors": ["harmonic_inference/utils/data_utils.py:load_kwargs_from_json"]}
{"id": "C110", "title": "Evaluation reports the accuracy over the whole dataset", "statement": "evaluate of the models reports as accuracy the percentage of right outputs and as loss the mean loss over all positions of the dataset that are to be measured, whatever the batch size is.", "quantifier": "All datasets with at least one data point, all outputs and losses, all batch sizes.", "why_tests_cant": "Errors in the weights of batches show only if the batches differ in size, and masks matter only if a whole batch is masked.", "anchors": ["harmonic_inference/models/chord_transition_models.py:ChordTransitionModel.evaluate", "harmonic_inference/models/key_transition_models.py:KeyTransitionModel.evaluate", "harmonic_inference/models/chord_sequence_models.py:ChordSequenceModel.evaluate", "harmonic_inference/models/chord_classifier_models.py:ChordClassifierModel.evaluate", "harmonic_inference/models/key_sequence_models.py:KeySequenceModel.evaluate"]}
{"id": "C111", "title": "The chord sequence model predicts the next chord", "statement": "ChordSequenceModel.get_data_from_batch returns as target of each position the chord at the next position, and nothing (-100) where the next chord is the first one of a new key, at the last chord of a piece and in the padding.", "quantifier": "All rows of all batches: any chords, key changes, lengths and padding.", "why_tests_cant": "Targets are masked before and after they are rolled around the end of the row; an error at the edges of a row is hidden in averages.", "anchors": ["harmonic_inference/models/chord_sequence_models.py:ChordSequenceModel.get_data_from_batch"]}
{"id": "C112", "title": "Chord transition targets mark the chord changes", "statement": "In the ChordTransitionDataset the target of a note is 1 if the chord changes at it and 0 if not; only the first note and the notes that begin at the same position as the note before them are not measured (-100).", "quantifier": "All pieces with at least one note and change indices within the piece.", "why_tests_cant": "Masks are shifted with np.roll, which wraps around; pieces of all lengths and all patterns of simultaneous notes have to be right.", "anchors": ["harmonic_inference/data/datasets.py:ChordTransitionDataset.__init__"]}
{"id": "C113", "title": "A grid search prints one runnable command for each combination", "statement": "grid_search.py prints, for the given lists of hyperparameters, one line for every combination of values. Running the line with test.py evaluates with exactly these values, the same checkpoints, data and options, and writes to a directory of its own within the output directory.", "quantifier": "All lists of values, all other options, all combinations.", "why_tests_cant": "The names of directories are made of abbreviations of options and texts of values, the commands are read back by another parser with its own defaults; collisions and differing defaults show only for particular combinations.", "anchors": ["grid_search.py", "test.py", "harmonic_inference/models/joint_model.py:add_joint_model_args", "harmonic_inference/utils/data_utils.py:load_models_from_argparse"]}
{"id": "C114", "title": "Averages of a log file are means over the pieces", "statement": "average_results returns for every accuracy of a log file the mean of all its logged values, with the keys in the order of their first lines, and ignores all other lines. From the log of evaluate these are the means over the pieces with an estimate and a ground truth; a value that is not a number raises an error.", "quantifier": "All log files with any interleaving of accuracies and other lines; all evaluations.", "why_tests_cant": "Lines are recognised by their text; keys that contain others, several separators in a line and pieces without result have to be told apart.", "anchors": ["harmonic_inference/utils/eval_utils.py:average_results", "test.py:evaluate"]}
{"id": "C115", "title": "Repeated chords and keys are those with equal class indices", "statement": "Chord.is_repeated(d, use_suspension=False) holds exactly for chords of the same pitch type and the same one-hot index (with inversions iff use_inversion), and Key.is_repeated exactly for keys of the same pitch type and the same one-hot index. Hence in the chords and keys of a piece that was read from a table no two adjacent ones have the same target class of the models.", "quantifier": "All chords, all keys, all tables of chord labels.", "why_tests_cant": "The comparison and the index are separate pieces of code over all pitches, types and inversions; a piece merges by the one and trains on the other.", "anchors": ["harmonic_inference/data/chord.py:Chord.is_repeated", "harmonic_inference/data/key.py:Key.is_repeated", "harmonic_inference/data/key.py:Key.equals", "harmonic_inference/data/piece.py", "harmonic_inference/utils/harmonic_utils.py:get_chord_one_hot_index", "harmonic_inference/utils/harmonic_utils.py:get_key_one_hot_index"]}
{"id": "C116", "title": "The debug log tiles the piece and agrees with the joint accuracy", "statement": "log_state logs one block for every maximal range of inputs on which the annotated and the estimated key and chord stay the same. The ranges follow one another from the first input to the last, each block names the estimated labels of its inputs, and it names the correct ones exactly if key or chord are wrong there. The durations add up to that of the piece, and those of the blocks without correction to the share that evaluate_chords_and_keys_jointly returns.", "quantifier": "All pieces with annotations from the first input on, all estimates of class indices, all durations.", "why_tests_cant": "Four label arrays are cut at common boundaries and compared by text; ties, inputs of no duration and changes of only one of the four arrays have to be cut right, and the agreement with the accuracy needs the texts to be different for different classes.", "anchors": ["harmonic_inference/utils/eval_utils.py:log_state", "harmonic_inference/utils/eval_utils.py:evaluate_chords_and_keys_jointly", "test.py:evaluate", "annotate.py:annotate"]}
{"id": "C117", "title": "The scripts run the model with the requested hyperparameters", "statement": "Without --defaults and --fh-defaults, test.py and annotate.py create the joint model with the hyperparameters of the command line, or raise if a minimum change probability exceeds the corresponding maximum. With one of the flags, the model has the settings of the paper for the given version of the chord sequence model (0, 1, 2; 2 if none is given), whatever else is on the command line, and the script exits with 1 for any other version.", "quantifier": "All values of the hyperparameters, both flags in all combinations, all versions, all component types.", "why_tests_cant": "Twelve values per version are assigned in nine branches, and both scripts have to apply them at the right time; a run with wrong hyperparameters looks like any other run.", "anchors": ["annotate.py:set_default_args", "annotate.py:__main__", "test.py:__main__", "harmonic_inference/models/joint_model.py:add_joint_model_args", "harmonic_inference/models/joint_model.py:from_args", "harmonic_inference/models/joint_model.py:HarmonicInferenceModel.__init__"]}
{"id": "C118", "title": "A joint model is created only of components that fit together", "statement": "A HarmonicInferenceModel is created exactly if its component models agree on the kind of input, and on one pitch type for each of notes, chords and keys, and its probability ranges are not empty. Every input row that the search then makes for the CSM, the KTM and the KSM has the length for which that model was built, every index at which the search looks up the CSM's distribution exists, and the labels of the search are as many as the outputs.", "quantifier": "All combinations of component types, all hyperparameters, all search states.", "why_tests_cant": "The check compares types pairwise in a dozen assertions; a missing or a repeated one only shows with combinations of models that no test trains.", "anchors": ["harmonic_inference/models/joint_model.py:HarmonicInferenceModel.check_input_output_types", "harmonic_inference/models/joint_model.py:HarmonicInferenceModel.__init__", "harmonic_inference/models/joint_model.py:HarmonicInferenceModel.run_csm_batched", "harmonic_inference/models/chord_sequence_models.py:SimpleChordSequenceModel", "harmonic_inference/models/key_transition_models.py:SimpleKeyTransitionModel", "harmonic_inference/models/key_sequence_models.py:SimpleKeySequenceModel"]}
{"id": "C119", "title": "The key changes of training and search agree", "statement": "The class with which the key sequence model is trained for a change from one key to another is exactly the class by which the beam search goes from a state in the first key to the second; every output of the model is read without an error, and it leads to no key only if the tonic lies off the range of spelled tonics.", "quantifier": "All search states, all pairs of keys with tonics that have a class, both pitch types, all classes.", "why_tests_cant": "The encoder counts intervals from an offset inside each mode, the search lists labels in a nested loop; an offset between them trains and decodes without any error.", "anchors": ["harmonic_inference/models/joint_model.py:HarmonicInferenceModel.__init__", "harmonic_inference/models/joint_model.py:HarmonicInferenceModel.get_key_change_states", "harmonic_inference/data/key.py:Key.get_key_change_one_hot_index"]}
{"id": "C120", "title": "Debug messages about chord changes report exactly the contradictions", "statement": "With debug logging, the estimate of a piece goes on as without. The message \"Piece changes chord on index i\" appears exactly for the inputs that do not begin together with the previous one (nor are the first) where the annotation changes chord and the probability is below one half, the other message exactly where it does not and the probability is above; the logged accuracies are the shares of the inputs without a message.", "quantifier": "All durations, all probabilities, all annotations including none.", "why_tests_cant": "Debug output is not tested; the accuracies are what the developer tunes the models by, and a mask shifted by one still gives plausible numbers.", "anchors": ["harmonic_inference/models/joint_model.py:DebugLogger.debug_chord_change_probs", "harmonic_inference/models/joint_model.py:HarmonicInferenceModel.get_harmony"]}
{"id": "C121", "title": "Debug messages about chord classifications judge the annotated ranges", "statement": "With debug logging, the range of each annotated chord which is classified is counted, as correct exactly if the class of the chord has the first rank, and there is a message with its probability, rank and the better classes exactly for the ranges which are counted and not correct.", "quantifier": "All lists of ranges and distributions, all annotations, all rankings of equal probabilities.", "why_tests_cant": "Whether a range is that of a chord is decided by two membership tests and a bisection; tests would have to enumerate ranges against annotations.", "anchors": ["harmonic_inference/models/joint_model.py:DebugLogger.debug_chord_classifications", "harmonic_inference/data/piece.py:Piece.get_chords_within_range"]}
{"id": "C122", "title": "Debug messages about key transitions judge the states that agree with the annotation", "statement": "With debug logging, at each change index the states are counted whose key is the annotated one before the index and whose chord is the annotated one at it; a state is correct if its probability of a key change is above one half where the annotation changes key, and below one half where it does not.", "quantifier": "All states, probabilities, annotations in order.", "why_tests_cant": "The comparison depends on two bisections and an index test; a wrong one only changes which states are logged.", "anchors": ["harmonic_inference/models/joint_model.py:DebugLogger.debug_key_transitions", "harmonic_inference/data/piece.py:Piece.get_key_change_input_indices"]}
{"id": "C123", "title": "Debug messages about key sequences judge the annotated key changes", "statement": "With debug logging, there are messages about the key sequence model exactly at annotated key changes. The states are counted whose key is the annotated one before the change, once more if their chord is the annotated one at it; a state is correct exactly if the annotated change has the first rank in its prior. The estimate goes on as without debug logging.", "quantifier": "All states, priors, annotations in order including none, all rankings of equal probabilities.", "why_tests_cant": "Four counters are updated in nested branches; the function is only reached with debug logging.", "anchors": ["harmonic_inference/models/joint_model.py:DebugLogger.debug_key_sequences", "harmonic_inference/models/joint_model.py:HarmonicInferenceModel.get_key_change_states"]}
{"id": "C124", "title": "Debug messages about chord priors judge the annotated chord changes", "statement": "With debug logging, there are messages about the chord sequence model exactly at annotated chord changes after the first input without a key change. The states are counted whose previous chord and key are the annotated ones before the index, as correct exactly if the annotated chord has the first rank in the prior of the state. The messages never raise for a piece whose first key begins with its first chord, and the message about the first chord has its probability and rank.", "quantifier": "All states, priors, annotations in order, all rankings of equal probabilities.", "why_tests_cant": "The list of previous chords is empty if the first annotated chord begins after the first input, and its last entry is then read; only the early return for key changes prevents that.", "anchors": ["harmonic_inference/models/joint_model.py:DebugLogger.debug_chord_sequence_priors", "harmonic_inference/models/joint_model.py:DebugLogger.debug_initial_chord_prior"]}
{"id": "C125", "title": "Data set files of a seed hold disjoint splits that evaluation and training read back", "statement": "After a successful run of create_h5_data.py, the files of the five data sets of a split have the same file ids, the ids of two splits have none in common, together they are the ids of the pieces that can be parsed, and files of other seeds are unchanged. test.py with the same seed evaluates exactly the pieces with the ids of the validation or test file, each made from its own rows, and train.py trains the initial chord prior on those of the training file. The script exits with status 1 exactly if a proportion is negative or all are zero.", "quantifier": "All inputs, proportions, shuffles, seeds, earlier contents of the directory.", "why_tests_cant": "Files, ids and pieces are aligned by position over three scripts; a swapped index or file name still gives files that load. Leftover files depend on the history of the directory.", "anchors": ["create_h5_data.py", "harmonic_inference/data/datasets.py:get_dataset_splits", "harmonic_inference/data/datasets.py:HarmonicDataset.to_h5", "test.py", "train.py", "harmonic_inference/utils/data_utils.py:load_pieces"]}
{"id": "C126", "title": "The models of a run are those which are asked for", "statement": "load_models_from_argparse loads exactly the five models of the search and the initial chord model. A model whose path is given is loaded from that file; with a version, from a checkpoint of that version, whatever the path; with neither, from a checkpoint of the newest version. The class is the first of the classes for that model which can load the file. The script exits with code 2 exactly if a model has no such checkpoint and all models before it are loaded.", "quantifier": "All file systems (sets of paths), all checkpoint directories and given paths without the special characters of glob, all versions, all classes' behaviours.", "why_tests_cant": "Which file is found depends on pattern matching and on the order of texts of everything in the directory; a wrong version still loads and gives plausible results.", "anchors": ["harmonic_inference/utils/data_utils.py:load_models_from_argparse"]}
{"id": "C127", "title": "What a network says about a sequence depends on that sequence alone", "statement": "The outputs of the chord sequence, key transition, key sequence, chord transition and chord classification models for a sequence of a batch, up to its length, and the hidden states after it, are those for the sequence alone: they depend neither on the padding, nor on the other sequences of the batch, nor on their number. So get_chord_classifications gives for each range the classification of its own window, read from both sides, whatever the batch size.", "quantifier": "All networks (any functions as cells, embeddings and heads, any number of layers), all batches of sequences of all lengths, all paddings, all hidden states, all batch sizes from 2.", "why_tests_cant": "Batching errors change only the outputs of some of the rows for some combinations of lengths; with trained weights the results remain plausible distributions.", "anchors": ["harmonic_inference/models/chord_classifier_models.py:SimpleChordClassifier.forward", "harmonic_inference/models/chord_sequence_models.py:SimpleChordSequenceModel.forward", "harmonic_inference/models/key_transition_models.py:SimpleKeyTransitionModel.forward", "harmonic_inference/models/key_sequence_models.py:SimpleKeySequenceModel.forward", "harmonic_inference/models/chord_transition_models.py:SimpleChordTransitionModel.forward", "harmonic_inference/models/joint_model.py:HarmonicInferenceModel.get_chord_classifications"]}
{"id": "C128", "title": "Continuing from a stored hidden state is reading the whole sequence", "statement": "Let each state of a search have as hidden state what the network has after the inputs of its past, or none if it has no past. Then the step by step runs of the search (run_one_step for chords and key changes, get_output for key segments) give for each state the output which the network gives at the end of its past and its new inputs read at once from the start, and the new hidden state is the one after these inputs. The order and the number of the states, and the batch size, do not matter.", "quantifier": "All networks, all lists of states with and without past, all new inputs, all batch sizes.", "why_tests_cant": "The hidden states pass through a tensor by layer and state, a transposition per item and another one per batch; exchanged axes go unnoticed where the number of layers and of states agree, and a wrong column gives another state's memory.", "anchors": ["harmonic_inference/models/chord_sequence_models.py:ChordSequenceModel.run_one_step", "harmonic_inference/models/key_transition_models.py:KeyTransitionModel.run_one_step", "harmonic_inference/models/key_sequence_models.py:KeySequenceModel.get_output", "harmonic_inference/models/joint_model.py:HarmonicInferenceModel.run_csm_batched", "harmonic_inference/models/joint_model.py:HarmonicInferenceModel.get_key_change_probs"]}
{"id": "C129", "title": "What the chord sequence model is trained on", "statement": "A batch of a ChordSequenceDataset, as prepared by get_data_from_batch, holds for each of its pieces one row for each chord: the chord relative to its key, and the change of keys at the first chord of each later key only; rows of zeros follow up to the longest piece of the batch. The target at chord i is the class of chord i+1 relative to its key, with the output reduction and inversions of the model. Nothing is predicted (-100) where chord i+1 begins a new key, after the last chord and in the padding. All rows have the width of the input of the network, all other targets are outputs of the network. The batch can be read exactly if the inputs are not reduced and every chord of its pieces has a class with the output settings; otherwise reading raises ValueError.", "quantifier": "All datasets of pieces with one pitch type, all settings, all batches of pieces in any order.", "why_tests_cant": "Targets are computed when the piece is loaded, reduced when it is read, then masked and rolled by the model; a shift by one, a mask of the wrong flag or the class of the wrong encoding still trains, to a worse model.", "anchors": ["harmonic_inference/data/datasets.py:ChordSequenceDataset.__init__", "harmonic_inference/data/datasets.py:ChordSequenceDataset.reduce", "harmonic_inference/data/datasets.py:HarmonicDataset.__getitem__", "harmonic_inference/models/chord_sequence_models.py:ChordSequenceModel.get_data_from_batch", "harmonic_inference/models/chord_sequence_models.py:SimpleChordSequenceModel.__init__"]}
{"id": "C130", "title": "The score of the analysis is the sum of the costs of its chords", "statement": "The log probability of the state returned by the beam search is the sum, over the chords of its analysis, of three parts. First the costs of the ranges that the chord consists of: candidate ranges that follow each other from the end of the previous chord to its own end, each with its own log probability and the log probability of the chord on it times its length, and each but the first with the cost of rejoining. Second, for a chord in the key of the previous one, the cost of the chord sequence model and the log probability of keeping the key times the length of the chord. Third, for a chord in a new key, the cost of the key sequence model for that key times the length and the log probability of changing the key times the length. Nothing is charged twice, and what was charged to a shorter version of a chord is given back when it is rejoined.", "quantifier": "All pieces, candidate ranges, models, thresholds, forced labels and beam sizes, with both classes of beams, with log probabilities added without rounding.", "why_tests_cant": "Charges are spread over five phases of the search and undone by rejoining; a charge that is forgotten, doubled or not given back only shifts scores, so that some other analysis wins.", "anchors": ["harmonic_inference/models/joint_model.py:HarmonicInferenceModel.beam_search", "harmonic_inference/models/joint_model.py:HarmonicInferenceModel.get_key_change_states", "harmonic_inference/utils/beam_search_utils.py:State.rejoin", "harmonic_inference/utils/beam_search_utils.py:State.add_ktm_log_prob", "harmonic_inference/utils/beam_search_utils.py:State.add_csm_prior"]}
{"id": "C131", "title": "The beam search returns a result", "statement": "A beam search over a piece with at least one input never raises, whatever the outputs of its networks. Inputs of the CSM, KTM and KSM can be made for every state they are made for, the prior of every chord is found (at the class of the chord relative to its key, with the settings of the CSM, or those of the ICM for the first chord, and added once for each input that the chord covers), the key transitions of every relative key are defined, the beams exist at every index where they are used, and a result (possibly none) is returned. Asked of the surroundings: ranges lie in the piece, classes of the CCM are labels with a prior, forced keys are labels, networks have one output for each of their classes, the beam has room for one state, log probabilities are not NaN.", "quantifier": "All pieces, candidate ranges, networks, caches, thresholds, forced labels, beam sizes and both classes of beams.", "why_tests_cant": "A crash needs a rare combination of key, chord and time in a long search over real models: an index out of reach in one of five phases, a vector that cannot be made for a chord far from its key, a beam that is used before it exists.", "anchors": ["harmonic_inference/models/joint_model.py:HarmonicInferenceModel.beam_search", "harmonic_inference/utils/beam_search_utils.py:State.add_csm_prior", "harmonic_inference/utils/beam_search_utils.py:State.get_csm_input", "harmonic_inference/utils/beam_search_utils.py:State.get_ktm_input", "harmonic_inference/utils/beam_search_utils.py:State.get_ksm_input", "harmonic_inference/utils/beam_search_utils.py:State.chord_transition"]}
{"id": "C132", "title": "The beam search finds an analysis", "statement": "If the candidate ranges lead from the first note to the end of the piece, the beam search returns an analysis, not None: beams are pruned, states without room are skipped early and chords far from a key are dropped, but never so that no state is left at the end. Forced keys and chords do not change this. The ranges of get_chord_ranges lead to the end if no label is forced and none is too long.", "quantifier": "All pieces, candidate ranges with a path to the end, networks, thresholds with min_key_change_prob <= max_no_key_change_prob, forced labels, beam sizes from 1 and both classes of beams.", "why_tests_cant": "Whether a beam runs empty depends on every pruning decision of the search; tests with some models and pieces cannot rule it out.", "anchors": ["harmonic_inference/models/joint_model.py:HarmonicInferenceModel.beam_search", "harmonic_inference/models/joint_model.py:HarmonicInferenceModel.get_key_change_states", "harmonic_inference/utils/beam_search_utils.py:State.chord_transition", "harmonic_inference/utils/beam_search_utils.py:HashedBeam.fits_in_beam"]}
{"id": "C133", "title": "A beam with room for all states loses nothing", "statement": "With a beam size greater than the number of analyses there can be (initial keys times one plus ranges x chords x (relative keys + 1), to the power of the number of inputs), the beam search is an exhaustive search: the state it returns is an analysis of the whole piece that the candidate ranges, the chords and keys to branch on and the key thresholds allow, and no other such analysis has a greater log probability; it returns None only if there is none.", "quantifier": "All pieces, candidate ranges, networks, thresholds, forced labels and log probabilities without NaN; all beam sizes above the bound.", "why_tests_cant": "The best analysis can only be known by enumerating all of them, which tests cannot do except for tiny pieces; what is pruned wrongly is not seen in the result.", "anchors": ["harmonic_inference/models/joint_model.py:HarmonicInferenceModel.beam_search", "harmonic_inference/models/joint_model.py:HarmonicInferenceModel.get_key_change_states", "harmonic_inference/utils/beam_search_utils.py:Beam.add", "harmonic_inference/utils/beam_search_utils.py:Beam.fits_in_beam", "harmonic_inference/utils/beam_search_utils.py:HashedBeam.add"]}
{"id": "C134", "title": "The search treats all keys alike", "statement": "With MIDI pitches as outputs, moving a piece by any number of semitones moves its analysis by as many: if the chord classifier gives each transposed chord the prior (and the place in the order) it gave the chord, and forced labels are transposed, the beam search returns an analysis with the same changes, chord types, inversions, modes and log probability whose roots and tonics are all moved by that number of semitones, or raises the same exception.", "quantifier": "All pieces, candidate ranges, networks, settings, beams (plain and hashed) and all transpositions.", "why_tests_cant": "Tests run a few pieces in one key; that no part of the search (class indices, hashes, wrap-around of pitch classes, relative vectors, key transitions) depends on the key itself can only be seen by comparing all pieces in all keys.", "anchors": ["harmonic_inference/models/joint_model.py:HarmonicInferenceModel.beam_search", "harmonic_inference/models/joint_model.py:HarmonicInferenceModel.get_key_change_states", "harmonic_inference/utils/beam_search_utils.py:State.chord_transition", "harmonic_inference/utils/beam_search_utils.py:State.key_transition", "harmonic_inference/utils/beam_search_utils.py:State.rejoin", "harmonic_inference/utils/beam_search_utils.py:State.get_csm_input", "harmonic_inference/utils/beam_search_utils.py:State.get_ktm_input", "harmonic_inference/utils/beam_search_utils.py:State.get_ksm_input", "harmonic_inference/utils/beam_search_utils.py:State.add_csm_prior"]}
{"id": "C135", "title": "Training, validation and evaluation measure the same", "statement": "On every batch, the loss that training_step returns, the loss and accuracy that validation_step logs and those that evaluate reports for a dataset of this batch are the same: the mean over the positions that have an input and a target. evaluate over a dataset is the mean of validation_step over its batches, weighted by these positions.", "quantifier": "All batches, outputs, losses and targets of all models (chord transition, chord sequence, pitch-based chord sequence, key transition, key sequence, chord classifier).", "why_tests_cant": "The three are written out separately for each model, with masks, ignore_index and reductions that differ only on unusual batches (padding, key changes, transpositions out of range, pieces of one chord).", "anchors": ["harmonic_inference/models/chord_transition_models.py:ChordTransitionModel.training_step", "harmonic_inference/models/chord_transition_models.py:ChordTransitionModel.validation_step", "harmonic_inference/models/key_transition_models.py:KeyTransitionModel.training_step", "harmonic_inference/models/key_transition_models.py:KeyTransitionModel.validation_step", "harmonic_inference/models/key_sequence_models.py:KeySequenceModel.training_step", "harmonic_inference/models/chord_sequence_models.py:ChordSequenceModel.training_step", "harmonic_inference/models/chord_sequence_models.py:PitchBasedChordSequenceModel.training_step", "harmonic_inference/models/chord_sequence_models.py:PitchBasedChordSequenceModel.evaluate", "harmonic_inference/models/chord_classifier_models.py:ChordClassifierModel.training_step", "harmonic_inference/models/chord_classifier_models.py:ChordClassifierModel.validation_step"]}
{"id": "C136", "title": "What the pitch-based chord sequence model is trained on", "statement": "For each batch of pieces, the pitch-based chord sequence model gets each chord of each piece with the key change at that chord, and as target of each chord the pitches of the next chord relative to the tonic of its key; nothing is to be predicted where the key changes, after the last chord and in the padding. All other rows are measured in training.", "quantifier": "All lists of pieces with the same pitch types, all batches of them; all positions.", "why_tests_cant": "The targets are computed from one-hot indices, with flags read from the last input column, rolled by one over a padded batch; a wrong offset trains silently on wrong pitches. Chords far from the tonic and rows that happen to begin with 1 are rare in test data.", "anchors": ["harmonic_inference/data/datasets.py:ChordSequenceDataset.reduce", "harmonic_inference/data/datasets.py:HarmonicDataset.__getitem__", "harmonic_inference/models/chord_sequence_models.py:PitchBasedChordSequenceModel.get_data_from_batch", "harmonic_inference/models/chord_sequence_models.py:PitchBasedChordSequenceModel.training_step"]}
{"id": "C137", "title": "What the key models are trained on", "statement": "For each batch of items of a key dataset that was written to an h5 file and loaded again, the key transition and key sequence models get for each item all chords of the piece from its beginning to the end of the key, then the chord at the key change relative to the key before it (if there is one), and the targets: the class of the change, or 1 at the change, 0 at the chords since the last change and nothing elsewhere. Every batch can be made.", "quantifier": "All lists of pieces, all items, all batches, all chunk sizes.", "why_tests_cant": "The data is padded by piece, cut by item, padded again and written to in place; which chords are lost depends on the order of the pieces and on the number of their key changes. Nothing raises for most batches, the models are just trained on zeros.", "anchors": ["harmonic_inference/data/datasets.py:HarmonicDataset.to_h5", "harmonic_inference/data/datasets.py:h5_to_dataset", "harmonic_inference/data/datasets.py:KeyHarmonicDataset.__getitem__", "harmonic_inference/data/datasets.py:pad_array", "harmonic_inference/models/key_transition_models.py:KeyTransitionModel.get_data_from_batch", "harmonic_inference/models/key_sequence_models.py:KeySequenceModel.get_data_from_batch"]}
{"id": "C138", "title": "The course data has every piece once", "statement": "create_ml_course_data.py visits each file of the corpus once, under the composer of its corpus, and for each file whose piece can be made writes a line with the keys and a line for each key with its chords; at the end it writes the vocabularies.", "quantifier": "All tables of files (any names of corpora, any pieces, any files that cannot be read) and all vocabularies that are there before.", "why_tests_cant": "It is a script without tests which needs the whole corpus; which files are visited depends on which names of composers begin with one another.", "anchors": ["create_ml_course_data.py:16", "create_ml_course_data.py:35-37", "create_ml_course_data.py:59-86", "create_ml_course_data.py:88-98"]}
{"id": "C139", "title": "The transposition invariant classifier treats all transpositions alike", "statement": "For every batch of pitch vectors TranspositionInvariantCNNClassifier gives an output for each root; if a vector is rotated by some pitches, then so are the outputs over the roots.", "quantifier": "All sizes, weights and layers of the classifier, all batches, all rotations.", "why_tests_cant": "Invariance under rotation is a statement about all vectors and weights; the class is not used by any script, so nothing runs it.", "anchors": ["harmonic_inference/models/chord_classifier_models.py:TranspositionInvariantCNNClassifier.__init__", "harmonic_inference/models/chord_classifier_models.py:TranspositionInvariantCNNClassifier.forward"]}
{"id": "C140", "title": "A piece that is labelled throughout comes back as it is labelled", "statement": "If a chord and a key are forced on every note, with the same labels on simultaneous notes, then every state returned by the search has, note by note, exactly these chords and keys.", "quantifier": "All pieces, labels, chord change probabilities and thresholds, all models, both classes of beams.", "why_tests_cant": "The result depends on how get_chord_ranges cuts the piece, how the beam search branches and rejoins and how forced ids are looked up there; tests force a few labels in a few pieces.", "anchors": ["harmonic_inference/models/joint_model.py:HarmonicInferenceModel.get_chord_ranges", "harmonic_inference/models/joint_model.py:HarmonicInferenceModel.beam_search", "harmonic_inference/models/joint_model.py:HarmonicInferenceModel.get_key_change_states", "harmonic_inference/utils/beam_search_utils.py:State.rejoin"]}
{"id": "C141", "title": "A result is stable: forced on the piece again, it comes back", "statement": "Take any result of get_harmony and force its chords, its interior chord changes and its keys on the same piece. Then every state that get_harmony returns, with the same or other models and settings, has the same chords, chord changes, keys and key changes. If nothing but labels was forced before, the forced input is accepted by the validation and the candidate ranges given to the search still lead from the beginning to the end of the piece.", "quantifier": "All pieces, models, thresholds and forced labels of the first run; all models and thresholds of the second run (the same ones for the second part).", "why_tests_cant": "It relates two runs through the output of the first; validation, ranges, search and output would all have to be run on all results of all models.", "anchors": ["harmonic_inference/models/joint_model.py:HarmonicInferenceModel.get_harmony", "harmonic_inference/models/joint_model.py:HarmonicInferenceModel.get_chord_ranges", "harmonic_inference/models/joint_model.py:HarmonicInferenceModel.beam_search", "harmonic_inference/utils/beam_search_utils.py:State.get_chords", "harmonic_inference/utils/beam_search_utils.py:State.get_keys"]}
{"id": "C142", "title": "What is trained is what is loaded", "statement": "After any sequence of runs of train.py into a directory of checkpoints that was empty, the other scripts load, for each of the five models: with the number of a run of that model as version, a checkpoint of exactly that run; by default, a checkpoint of the last run (as long as there are at most ten). A checkpoint of a chord sequence model is loaded as the class as which it was trained (CSM or CSM-P, which share a directory), with its hyperparameters and weights. The prior of the ICM is written to the file that is read by default. A file of --model-kwargs is accepted exactly if it can be read and every key is a parameter of the class which train.py does not set itself; every value reaches its parameter.", "quantifier": "All sequences of runs of all models, of any length, each with any checkpoint files; all directories without pattern characters and final slash; all hyperparameters of both classes; all files of arguments and learning rates.", "why_tests_cant": "The default goes wrong only after ten trainings of one model, and the class depends on the sizes of all weights for all hyperparameters; each test would need a training.", "anchors": ["train.py:__main__", "harmonic_inference/utils/data_utils.py:load_models_from_argparse", "harmonic_inference/utils/data_utils.py:load_kwargs_from_json", "harmonic_inference/models/chord_sequence_models.py:SimpleChordSequenceModel", "harmonic_inference/models/chord_sequence_models.py:PitchBasedChordSequenceModel"]}
{"id": "C143", "title": "Labels are written onto the scores of their pieces", "statement": "After test.py has written its tables, write_tsvs_to_scores calls write_labels_to_score for each piece with an output: with the folder of the piece in the output and in the annotations, and with its name. Of the scores and tables in these folders, write_labels_to_score then parses exactly those of that piece.", "quantifier": "All pieces in all folders, with or without an output; all contents of the folders; all names.", "why_tests_cant": "Which files are taken depends on all names in a folder at once; a test with a few pieces does not have a name that ends with another one.", "anchors": ["write_to_score.py:write_tsvs_to_scores", "test.py:write_tsvs_to_scores", "harmonic_inference/utils/eval_utils.py:write_labels_to_score"]}
{"id": "C144", "title": "What is forced from the annotation is counted as right", "statement": "If the chords of the annotation of a piece, with their changes, and its keys are forced when the piece is analysed, then the evaluation of the result against that annotation gives accuracy 1, for chords, keys and both, with any reduction, whatever the networks say. If only some of its chords are forced, the chord accuracy is at least the share of the duration of the notes with a forced chord.", "quantifier": "All joint models and parameters; all pieces and annotations; all sets of forced labels from the annotation; all reductions and settings of the evaluation.", "why_tests_cant": "The guarantee is for any networks; it goes through the validation of the forced labels, the ranges, the beam search, the runs of the result and the evaluation at once.", "anchors": ["harmonic_inference/models/joint_model.py:HarmonicInferenceModel.get_harmony", "harmonic_inference/models/joint_model.py:HarmonicInferenceModel.get_chord_ranges", "harmonic_inference/utils/eval_utils.py:evaluate_chords", "harmonic_inference/utils/eval_utils.py:evaluate_keys", "harmonic_inference/utils/eval_utils.py:evaluate_chords_and_keys_jointly"]}
{"id": "C145", "title": "The analyses of one model do not influence each other", "statement": "If get_harmony is called several times on one model, with any pieces and forced labels, also if some of the calls raise, each call gives what it would give on a new model. The sets of the caller are changed by a call in nothing but the change at 0, so the same sets can be given again with the same result. After a call the model has no current piece.", "quantifier": "All joint models; all sequences of calls with all pieces and forced labels; all states in which the attributes of the model can be before a call.", "why_tests_cant": "The model keeps the piece, three caches and six sets of forced labels as attributes from call to call; a cache that is not renewed shows only after a certain other call before.", "anchors": ["harmonic_inference/models/joint_model.py:HarmonicInferenceModel.get_harmony", "harmonic_inference/models/joint_model.py:HarmonicInferenceModel._validate_and_load_forced_labels", "harmonic_inference/models/joint_model.py:HarmonicInferenceModel.get_chord_ranges"]}
{"id": "C146", "title": "The work of the beam search is bounded by its parameters", "statement": "A beam search that returns runs the CSM on at most beam_size states for each note but the first. It runs the KTM, and likewise the KSM, on at most B·F·(1+K) states for each chord range, where F and K are the largest numbers of chords and keys that are branched on (at most the branching factors; two chords where one would only repeat the chord of the state), and B is the number of initial keys at the first note and beam_size after it. From each note there are at most as many ranges as notes that follow. So the work does not grow exponentially with the length of the piece.", "quantifier": "All networks, parameters, forced labels and ranges; all lengths of pieces; both classes of beams.", "why_tests_cant": "A leak in the pruning shows only on long pieces with certain probabilities; no finite number of timings excludes it.", "anchors": ["harmonic_inference/models/joint_model.py:HarmonicInferenceModel.beam_search", "harmonic_inference/models/joint_model.py:HarmonicInferenceModel.get_key_change_states", "harmonic_inference/models/joint_model.py:HarmonicInferenceModel.get_key_change_probs", "harmonic_inference/utils/beam_search_utils.py:Beam.add", "harmonic_inference/utils/beam_search_utils.py:HashedBeam.add"]}
{"id": "C147", "title": "What the chord classifier is trained on", "statement": "A chord classification dataset made of labelled pieces has exactly one item for each chord of each piece and each transposition of the range, also after an h5 file. The item pairs the notes around that chord (two before it, its own, two after it, with their places in the chord), transposed by that interval, with the class, root, bass and pitches of the transposed chord. If the root or the bass is out of range after the transposition, the item is left out of the loss.", "quantifier": "All lists of labelled pieces with spelled notes and chords; all reductions, with and without inversions; all ranges of transpositions; all chunk sizes of the h5 file.", "why_tests_cant": "An item that is paired with the class of a neighbouring chord, or of a chord of another piece, looks like any other; which of them are shifted depends on the number of chords and notes of all pieces before it.", "anchors": ["harmonic_inference/data/datasets.py:ChordClassificationDataset", "harmonic_inference/data/datasets.py:HarmonicDataset.__getitem__", "harmonic_inference/data/datasets.py:HarmonicDataset.to_h5", "harmonic_inference/data/datasets.py:h5_to_dataset", "harmonic_inference/data/piece.py:ScorePiece.get_chord_note_inputs", "harmonic_inference/data/vector_decoding.py:transpose_note_vector"]}
{"id": "C148", "title": "What the chord transition model is trained on", "statement": "A batch of the chord transition dataset has, for each chosen piece, one vector per note with the distances to the notes before and after it, followed by zeros up to the longest chosen piece. Counted in the loss are exactly the notes that do not begin together with the note before them, and neither the first note nor padding. The target of a counted note says whether a chord of the annotation begins after the note before it and not after it; so every chord that begins after the first note is the target 1 of exactly the first note that does not begin before it. An h5 file does not change any of this.", "quantifier": "All lists of labelled pieces with notes and chords in order; all non-empty choices of pieces for a batch, in any order and with repetitions; all chunk sizes of the h5 file.", "why_tests_cant": "A target that is shifted by one note, or a mask that drops a real note or keeps a padding row, only lowers the quality of the model; nothing fails. Whether it happens depends on simultaneous notes and on the lengths of the other pieces of the batch.", "anchors": ["harmonic_inference/data/datasets.py:ChordTransitionDataset", "harmonic_inference/data/datasets.py:HarmonicDataset.__getitem__", "harmonic_inference/data/datasets.py:HarmonicDataset.to_h5", "harmonic_inference/models/chord_transition_models.py:ChordTransitionModel.get_data_from_batch", "harmonic_inference/data/piece.py:ScorePiece.get_chord_change_indices", "harmonic_inference/data/note.py:Note.to_vec"]}
{"id": "C149", "title": "Pieces loaded from tables are trained as they are annotated", "statement": "If the tables of a piece are in order (measures follow one another, notes are sorted and lie in measures, rows of chords can be read, follow one another and have the durations from their beginnings to their ends), then the piece is loaded, with one note for each row of a note and one chord for each row whose chord is not that of the row before it; each chord lasts until the next one, and as long as the distance between its ends. The chord transition model is trained on it with the target 1 exactly at the notes up to which such a row begins since the note before, and every such row after the first note is the target of a note which is measured. The chord classifier is trained on one item for each such row, with its class and its bass, and with the notes from two before the chord to two after it.", "quantifier": "All tables of measures, notes and chords in order; all reductions; with and without inversions, relative keys and suspensions; all non-empty choices of pieces for a batch.", "why_tests_cant": "Between a table and a target there are six steps in four files (reading rows, joining equal chords, matching chords to notes, positions, padding, masks). Tests look at each step with inputs of its own; that their composition trains on the annotated changes for all tables is not seen by any of them.", "anchors": ["harmonic_inference/data/piece.py:get_score_piece_from_data_frames", "harmonic_inference/data/note.py:Note.from_series", "harmonic_inference/data/chord.py:Chord.from_series", "harmonic_inference/data/chord.py:Chord.merge_with", "harmonic_inference/data/datasets.py:ChordTransitionDataset", "harmonic_inference/data/datasets.py:ChordClassificationDataset"]}
{"id": "C150", "title": "The chord sequence and key models are trained on tables as they are annotated, if the chords are near their keys", "statement": "A piece loaded from tables in order (C149) has, at each row with a new chord, the key of that row, and keys begin exactly where the tonic or the mode of such rows changes. The dataset of the chord sequence model can be made iff the root and the bass of all chords are at most 14 fifths from their tonics; that of the key transition model iff they are at most 19 fifths from their tonics and the first chord of each later key at most 19 fifths from the tonic of the key before it; that of the key sequence model iff this holds for the chords before the last key and each key is at most 14 fifths from the one before it. Otherwise making it raises a ValueError, whichever other pieces there are. In a batch of the chord sequence model the target of each row with a new chord is the class of the next one if both have the same tonic and mode, and it is ignored otherwise.", "quantifier": "All tables in order, all lists of pieces with spelled pitches and all batches; all reductions, with and without inversions, relative keys and suspensions.", "why_tests_cant": "Whether a dataset can be made depends on every chord of every piece: a single chord far from its key stops training on a corpus with thousands of pieces. Tests with some pieces do not tell which chords do so.", "anchors": ["harmonic_inference/data/datasets.py:ChordSequenceDataset", "harmonic_inference/data/datasets.py:KeyTransitionDataset", "harmonic_inference/data/datasets.py:KeySequenceDataset", "harmonic_inference/data/piece.py:get_score_piece_from_data_frames", "harmonic_inference/data/chord.py:Chord.to_vec", "harmonic_inference/data/key.py:Key.get_key_change_one_hot_index"]}
{"id": "C151", "title": "What is printed for notes, chords and keys identifies them", "statement": "Every note, chord, key and list of chords can be printed. Two chords of the same pitch type have the same str iff they have the same root, type, inversion, bass, onset and offset; two notes iff they have the same pitch, octave, onset and offset; two keys iff they have the same relative tonic and mode (pitches of MIDI type up to octaves). Two lists of chords joined by '; ' in the messages of the joint model are the same text iff they have as many chords, equal in these respects one by one. repr is the same iff the notes, keys or chords are equal, if no suspension is the text 'None'.", "quantifier": "All notes, chords, keys and lists of chords whose positions are measures and beats; all integers as pitches, octaves, inversions and levels; all fractions.", "why_tests_cant": "That texts made of several parts of variable length are unambiguous is a statement about all pairs of objects. Tests compare a few printed texts with expected ones.", "anchors": ["harmonic_inference/data/chord.py:Chord.__str__", "harmonic_inference/data/chord.py:Chord.__repr__", "harmonic_inference/data/note.py:Note.__str__", "harmonic_inference/data/note.py:Note.__repr__", "harmonic_inference/data/key.py:Key.__str__", "harmonic_inference/data/key.py:Key.__repr__", "harmonic_inference/utils/harmonic_utils.py:get_chord_string", "harmonic_inference/utils/harmonic_utils.py:get_pitch_string"]}
{"id": "C152", "title": "The accuracies of an analysis do not depend on the key a piece is written in", "statement": "If the chords and keys of a piece and those of its estimate are moved together (by fifths for tonal pitch classes as long as all stay in range, by semitones for MIDI), the accuracies of chords, of keys and of both jointly stay the same, for all reductions, with and without inversions and modes. So with MIDI pitches and a given first key, a piece moved by any number of semitones is analysed with the same accuracies, if the models are (C134).", "quantifier": "All annotations and estimates with classes, all intervals, all reductions and options of the evaluation; all searches with the hypotheses of C134.", "why_tests_cant": "Tests evaluate given pieces. That no wrong root counts as right, or the reverse, after any transposition of any piece is a statement about all pairs of classes and all pieces.", "anchors": ["harmonic_inference/utils/eval_utils.py:evaluate_chords", "harmonic_inference/utils/eval_utils.py:evaluate_keys", "harmonic_inference/utils/eval_utils.py:evaluate_chords_and_keys_jointly", "harmonic_inference/models/joint_model.py:HarmonicInferenceModel.get_harmony"]}
{"id": "C153", "title": "A search with more room or more branching never gives a worse analysis", "statement": "Whatever the size and kind of the beams, an analysis that is returned is one of those that the candidate ranges, the chords and keys to branch on and the key thresholds allow. The analysis found with beams that have room for all states is never less probable than the one found with smaller ones, with hashed ones, or with fewer chords and keys to branch on. That this holds of any two sizes is false: a larger beam may find a less probable analysis.", "quantifier": "All models, pieces, sizes of beams, hash lengths and branching factors. For the comparison: searches without a quick exit that drops a state, with plain beams of the size needed, against all other sizes and smaller branching factors.", "why_tests_cant": "Tests run a piece with one size of beams. That no size at all does better is a statement about all executions; that a larger beam can do worse needs a constructed model.", "anchors": ["harmonic_inference/models/joint_model.py:HarmonicInferenceModel.beam_search", "harmonic_inference/utils/beam_search_utils.py:Beam", "harmonic_inference/utils/beam_search_utils.py:HashedBeam"]}
{"id": "C154", "title": "What is learnt from a piece does not depend on the numbers of its measures", "statement": "If all measure numbers in the tables of a piece (measures, their successors, onsets and offsets of notes and chords) are raised or lowered by the same number, the piece is read with the same chords, keys and levels at positions moved by that number; distances of positions, the inputs of the chord classifier and the data that all models are trained on do not change at all, and an exception is raised if and only if it was raised before.", "quantifier": "All tables of measures, notes and chords, also those that cannot be read; all numbers of measures to move by, another for each piece; all reductions and options.", "why_tests_cant": "A test compares one excerpt with the score it is taken from, if any; all test pieces begin with measure 1. That no function uses an absolute measure number is a statement about all tables.", "anchors": ["harmonic_inference/utils/rhythmic_utils.py:get_range_length", "harmonic_inference/utils/rhythmic_utils.py:get_rhythmic_info_as_proportion_of_range", "harmonic_inference/data/piece.py:get_score_piece_from_data_frames", "harmonic_inference/data/piece.py:get_chord_note_input", "harmonic_inference/data/datasets.py:ChordClassificationDataset", "harmonic_inference/data/datasets.py:ChordTransitionDataset"]}
{"id": "C155", "title": "The chord sequence and key models learn the same from a piece in any key", "statement": "If the chords and keys of a piece are moved by any interval, the rows and targets which the chord sequence model (pitch-based or not), the key transition model and the key sequence model are trained on do not change. The tables of a piece with its notes moved and its global keys renamed by an interval are read as the same chords, keys and key changes, moved by that interval, if all pitches are in the range of pitches in both keys.", "quantifier": "All pieces (pitch types, chords, keys, indices of key changes, also inconsistent ones), all intervals, another for each piece; all tables, renamings of global keys, reductions and options.", "why_tests_cant": "A test can transpose one piece by some intervals; that no row contains an absolute pitch, whatever the chords and keys are, is a statement about all pieces. Where the range of pitches ends chords are silently left out, so that the condition matters.", "anchors": ["harmonic_inference/data/datasets.py:ChordSequenceDataset", "harmonic_inference/data/datasets.py:KeyTransitionDataset", "harmonic_inference/data/datasets.py:KeySequenceDataset", "harmonic_inference/data/chord.py:Chord.to_vec", "harmonic_inference/data/chord.py:Chord.from_series", "harmonic_inference/data/key.py:Key.from_series", "harmonic_inference/utils/harmonic_utils.py:absolute_to_relative"]}
{"id": "C156", "title": "The note values in which a piece is written do not matter, but for lengths in whole notes", "statement": "If all note values of a piece (lengths and offsets of measures, beats, durations) are multiplied by the same positive number and the denominators of its time signatures are adapted: distances are multiplied by it, metrical levels and places within chords are the same; in the inputs of the chord classifier and the chord transition model only the two distances of each note to its neighbours are multiplied, and in the vector of a chord only its duration; targets are the same; the same ranges may be chords if the longest length of a chord is multiplied too; and all accuracies are the same. An exception is raised if and only if it was raised before.", "quantifier": "All tables of measures, notes and chords, also those that cannot be read; all positive factors for distances, inputs, ranges and accuracies, and all time signatures; for whole tables, the division of all note values by any positive natural number.", "why_tests_cant": "A test would have to write pieces a second time in other note values; no test piece exists in two notations. That only these entries of the inputs depend on the note values is a statement about all pieces.", "anchors": ["harmonic_inference/utils/rhythmic_utils.py:get_range_length", "harmonic_inference/utils/rhythmic_utils.py:get_rhythmic_info_as_proportion_of_range", "harmonic_inference/utils/rhythmic_utils.py:get_metrical_level", "harmonic_inference/data/piece.py:get_score_piece_from_data_frames", "harmonic_inference/data/piece.py:get_chord_note_input", "harmonic_inference/data/note.py:to_vec", "harmonic_inference/data/chord.py:to_vec", "harmonic_inference/models/joint_model.py:get_chord_ranges", "harmonic_inference/utils/eval_utils.py:evaluate_chords", "harmonic_inference/utils/eval_utils.py:evaluate_keys"]}
{"id": "C157", "title": "The analysis does not depend on the base of the logarithms", "statement": "If every log probability the beam search uses (of ranges, chords, rejoining, initial chords, chord sequences, key changes and new keys) is multiplied by the same positive number - that is, if logarithms to another base are taken throughout - beam_search returns an analysis with the same chords, keys and change positions, whose score is multiplied by that number, and it fails or finds nothing in the same cases. More generally the same holds for any change of unit that goes with addition, subtraction, comparison and multiplication by lengths and exponents, and for any other representation of the hidden states of the networks that keeps different states different.", "quantifier": "all pieces, chord ranges, forced labels, beam sizes, hash lengths, pitch types, networks, and all positive factors", "why_tests_cant": "The score of a state is a sum of terms from six models, some of which are taken away again when a chord is joined on; a test fixes one set of models and one base.", "anchors": ["harmonic_inference/models/joint_model.py:839-1103 (beam_search)", "harmonic_inference/models/joint_model.py:1107-1323 (get_key_change_probs, get_key_change_states)", "harmonic_inference/utils/beam_search_utils.py:90-420 (State)"]}
{"id": "C158", "title": "Looser limits do not make the analysis worse", "statement": "If min_chord_change_prob is lowered, max_no_chord_change_prob or max_chord_length raised, or forced chords and keys are left out, get_chord_ranges returns all the candidate ranges it returned before, in the same order and with the same log probabilities for the range and for joining it on. A beam search that examines all states over the larger set of candidate ranges returns an analysis whose log probability is at least that of any search over the smaller set. The same holds if the limits on changes of key (min_key_change_prob, max_no_key_change_prob) are loosened.", "quantifier": "all pieces, change probabilities, forced labels, limits with min_chord_change_prob <= max_no_chord_change_prob, and beams of all sizes for the search with tighter limits", "why_tests_cant": "A test compares two settings on one piece; whether a setting can lose a range or a better analysis depends on all chains of ranges.", "anchors": ["harmonic_inference/models/joint_model.py:669-791 (get_chord_ranges)", "harmonic_inference/models/joint_model.py:839-1103 (beam_search)"]}
{"id": "C159", "title": "What the sequence models see of the annotated analysis is what they are trained on", "statement": "Suppose a piece is loaded from score tables with spelled pitches and its annotated analysis (the chords and keys of the tables, from note to note) is the one that the search finds. Then in every state of this analysis the key transition model has seen exactly the vectors of the KeyTransitionDataset of the piece for the chords so far; the chord sequence model has seen the vectors of the ChordSequenceDataset, and its prior for each chord is its output after them, where the target in training is the class of this chord unless its key begins with it; and the log probability of each change of key is what the key sequence model gives to the class that the KeySequenceDataset has as its target, after the vectors that it has as its inputs.", "quantifier": "all pieces from tables, all networks, all settings of the search with which the annotated analysis is the one found", "why_tests_cant": "A test compares the two computations for a few chords of one piece. The search takes durations and metrical levels from caches indexed by notes, the datasets take them from the chord tables, and the difference only shows for particular rests, last notes or changes of key.", "anchors": ["harmonic_inference/models/joint_model.py:555-573 (get_harmony)", "harmonic_inference/models/joint_model.py:1105-1375 (get_key_change_probs, get_key_change_states, run_csm_batched)", "harmonic_inference/utils/beam_search_utils.py:17-885 (State)", "harmonic_inference/data/datasets.py:580-746 (ChordSequenceDataset)", "harmonic_inference/data/datasets.py:876-1067 (KeyTransitionDataset, KeySequenceDataset)", "harmonic_inference/data/piece.py:424-448 (get_duration_cache)"]}
{"id": "C160", "title": "The changes of key that are learnt are those between the keys of the chords", "statement": "For a piece loaded from score tables with spelled pitches, at each change of key: the target in the KeySequenceDataset is the class of the mode of the first chord of the new key and of the interval from the tonic of the chord before it; the vector with which the model is asked is that chord relative to the key of the chord before it; and the row of that chord in the KeyTransitionDataset has the change between the two keys. This holds whether chords are read in their applied keys (use_relative) or in their local keys.", "quantifier": "all pieces from tables, both values of use_relative", "why_tests_cant": "Whether the keys of the list of keys and those of the chords agree depends on the first chord of each key only; a test whose local keys begin with chords of the key itself does not show it.", "anchors": ["harmonic_inference/data/piece.py:582-757 (get_score_piece_from_data_frames)", "harmonic_inference/data/key.py:125-209 (get_key_change_vector, get_key_change_one_hot_index)", "harmonic_inference/data/datasets.py:876-1067 (KeyTransitionDataset, KeySequenceDataset)"]}
{"id": "C161", "title": "The analysis of a piece depends on its notes and its measures only", "statement": "The analysis that get_harmony finds for a ScorePiece is the same whether or not the piece has chord labels, and whatever these are; and it does not change if all measures are renumbered. All in all it is the search over chord ranges with the chord transition model applied to the vectors of all notes of the piece, and the chord classifier applied to the window of each range.", "quantifier": "all networks, parameters, pieces, labels and forced positions", "why_tests_cant": "The labels come in only through the end of the piece, which is read at two places; a test with labels that end with the last note never shows it, and which networks are sensitive to it is not known.", "anchors": ["harmonic_inference/models/joint_model.py:505-650 (get_harmony, get_chord_change_probs)", "harmonic_inference/models/joint_model.py:793-837 (get_chord_classifications)", "harmonic_inference/data/piece.py:424-519 (get_duration_cache, get_chord_note_inputs)", "harmonic_inference/data/datasets.py:316-344 (ChordTransitionDataset)"]}
{"id": "C162", "title": "The analysis of a transposed piece is the transposed analysis", "statement": "If all notes of a spelled ScorePiece are moved by the same interval, get_harmony finds the chords and the keys of the original piece moved by that interval, with the same changes and the same score, provided that the chord transition model and the chord classifier treat the note vectors like those of the moved notes, and forced labels are moved, too.", "quantifier": "all pieces whose notes stay in range, all intervals (fifths and semitones that agree), all networks and parameters, all forced labels", "why_tests_cant": "It is a statement about pairs of runs of the whole pipeline for every interval; a test would need networks that are known to be equivariant, and would have to tell the pipeline's part from theirs.", "anchors": ["harmonic_inference/models/joint_model.py:505-650 (get_harmony, get_chord_change_probs)", "harmonic_inference/models/joint_model.py:793-837 (get_chord_classifications)", "harmonic_inference/data/note.py:118-302 (Note.to_vec)", "harmonic_inference/data/piece.py:52-162 (get_chord_note_input)", "harmonic_inference/data/piece.py:424-519 (get_duration_cache, get_chord_note_inputs)"]}
{"id": "C163", "title": "Only what is forced at each note matters, not how the forces are written", "statement": "Two requests to get_harmony that force the same at each note of a piece give the same analysis, or both raise: the order of the changes and of the labels does not matter, nor whether a label is given for a range of notes or for two parts of it, whether bounds count from the end, whether a change is forced at the first note, or whether there are labels for no note.", "quantifier": "all pieces, networks, parameters and pairs of requests", "why_tests_cant": "Changes are Python sets, whose order is that of hashes, and labels are written into an array one after the other, each checked against those before it; a test sees a few orders of a few requests.", "anchors": ["harmonic_inference/models/joint_model.py:373-503 (_validate_and_load_forced_labels)", "harmonic_inference/models/joint_model.py:505-629 (get_harmony)", "harmonic_inference/models/joint_model.py:652-667 (_apply_forced_chord_changes)"]}
{"id": "C164", "title": "Only the places of notes along the score matter, not its measures", "statement": "If the same notes (pitch, octave, duration, metrical levels) are at the same distances from the beginning of two scores whose measures differ in number, numbering, length or offset, and both end at the same place, get_harmony gives the same analysis with the same networks and the same forces. If chords also are at the same places, the chord classifier and the chord transition model are trained on the same data.", "quantifier": "all networks, parameters, forces, and pairs of pieces whose measures are linked in order with no negative duration, and whose positions are within their measures", "why_tests_cant": "Positions are pairs of a measure and a beat, and are compared, subtracted and divided in many places, some of which count from the nearer measure; a test has one division into measures for each score.", "anchors": ["harmonic_inference/models/joint_model.py:505-650 (get_harmony, get_chord_change_probs)", "harmonic_inference/models/joint_model.py:793-837 (get_chord_classifications)", "harmonic_inference/data/piece.py:52-185 (get_chord_note_input, get_range_start)", "harmonic_inference/data/piece.py:424-519 (get_duration_cache, get_chord_note_inputs)", "harmonic_inference/utils/rhythmic_utils.py:10-121"]}
{"id": "C165", "title": "The accuracies measure a distance between analyses", "statement": "Of two analyses of a piece, the share of the duration where they differ (one minus evaluate_chords, evaluate_keys or evaluate_chords_and_keys_jointly) depends on what they say about each note only, not on how they are divided into chords and keys. It is 0 between an analysis and itself, it does not depend on which of the two is the annotation, and from one analysis to a third it is at most the sum over a second one.", "quantifier": "All pieces and estimates whose chords and keys cover all notes and have classes, all durations that are not negative, all pitch types, reductions, and choices of inversions and modes.", "why_tests_cant": "Annotation and estimate are stored differently (objects with change indices, the last one open; class indices with a closing index) and are read by different loops; tests compare single pairs.", "anchors": ["harmonic_inference/utils/eval_utils.py:298-372 (evaluate_chords)", "harmonic_inference/utils/eval_utils.py:375-422 (get_chord_distance)", "harmonic_inference/utils/eval_utils.py:425-518 (evaluate_keys, get_key_distance)", "harmonic_inference/utils/eval_utils.py:521-628 (evaluate_chords_and_keys_jointly)"]}
{"id": "C166", "title": "The analysis keeps to the thresholds of its parameters", "statement": "In the returned analysis a chord begins after the first note only where a change is forced or where the chord transition model's probability is at least min_chord_change_prob. Each chord was put before the key transition model; where no key is forced, it is in a new key only if the probability is at least min_key_change_prob, and in the key of the chord before only if it is at most max_no_key_change_prob; where a key is forced, the key is kept exactly if it is that key already. So with a chord (key) transition model that stays below its threshold, and nothing forced, the piece is one chord (one key). There are at most as many chords as notes at which one can begin. A chord transition model that is sure at each onset (below the threshold, or so high that going on has log probability minus infinity) divides the piece: in a possible analysis without forced changes the chords begin exactly at the onsets where it says so.", "quantifier": "All models, pieces, durations, forced labels, beam and branching parameters for which get_harmony returns an analysis.", "why_tests_cant": "The thresholds are applied when ranges are built and when states are branched; chords are rejoined and key changes undone later. Tests do not look at the networks' outputs for the path that was returned.", "anchors": ["harmonic_inference/models/joint_model.py:652-735 (get_chord_ranges)", "harmonic_inference/models/joint_model.py:1010-1073 (the branch on key changes)", "harmonic_inference/models/joint_model.py:1126-1173 (get_key_change_probs)", "harmonic_inference/models/joint_model.py:505-629 (get_harmony)"]}
{"id": "C167", "title": "What the thresholds rule out is counted as wrong", "statement": "If two notes are annotated with different chords and the chord transition model is below min_chord_change_prob at all notes after the first up to the second, with no forced change there, then evaluate_chords of the analysis that get_harmony returns loses at least the shorter one of the durations of the two notes. If the key transition model stays below min_key_change_prob and no key is forced, evaluate_keys loses at least as much for two notes with different annotated keys. The joint accuracy loses at least as much as either. So no beam, branching or later model makes up for a change that the thresholds rule out.", "quantifier": "All models, pieces, annotations, forced labels, beam and branching parameters, pitch types, reductions, choices of inversions and modes, for which get_harmony returns an analysis.", "why_tests_cant": "The thresholds are in the ranges and in the branching of the search, the accuracies are computed from the decoded labels; tests compare accuracies of single pieces.", "anchors": ["harmonic_inference/models/joint_model.py:652-735 (get_chord_ranges)", "harmonic_inference/models/joint_model.py:1010-1073 (the branch on key changes)", "harmonic_inference/utils/eval_utils.py:298-372 (evaluate_chords)", "harmonic_inference/utils/eval_utils.py:425-518 (evaluate_keys)", "harmonic_inference/utils/eval_utils.py:521-628 (evaluate_chords_and_keys_jointly)"]}
{"id": "C168", "title": "The chords of an analysis are ones the classifier puts first", "statement": "Each chord of an analysis of get_harmony covers one or more stretches of notes, one after another. On each stretch it is justified: it is a chord forced on one of its notes, or no note of the stretch has a forced chord and it is among the classes that the chord classifier finds likeliest for the notes of that very stretch, as many as the search is to branch on there (or the likeliest two where that is one). So, without forced chords, every note lies in a stretch of its segment for which its chord ranks within that number. The second class is taken only on the first stretch of a chord, and only if the likeliest class is the chord before it.", "quantifier": "every joint model with sound thresholds, every piece, all forced chords and keys, every analysis returned", "why_tests_cant": "the analyses are built by a search over unboundedly many histories with arbitrary networks; a test sees only some analyses and cannot tell an unlikely chord that leaked in from a likely one", "anchors": ["harmonic_inference/models/joint_model.py:HarmonicInferenceModel.get_harmony", "harmonic_inference/models/joint_model.py:HarmonicInferenceModel.beam_search"]}
{"id": "C169", "title": "A new key is one the key sequence model puts first", "statement": "Wherever the key of an analysis differs from the key before it and none is forced, the search stood, at that point, in a state with the same earlier nodes, the same chord and the old key; the key sequence model was asked about it; and the new key lies the interval of one of its relative keys above the old tonic, in the mode of that relative key. Of the relative keys the model puts before that one, fewer than the number to branch on lead that state to any other key.", "quantifier": "every joint model with sound thresholds, every piece, every analysis returned, each place where its key changes", "why_tests_cant": "the keys are chosen inside a search over unboundedly many histories with arbitrary networks, and a returned analysis does not record what it was chosen from", "anchors": ["harmonic_inference/models/joint_model.py:HarmonicInferenceModel.get_key_change_states", "harmonic_inference/models/joint_model.py:HarmonicInferenceModel.beam_search"]}
{"id": "C170", "title": "With a sure chord transition model and one chord to branch on, the search is a plain pipeline", "statement": "Suppose no chords or chord changes are forced, the chord transition model is sure at each onset (below min_chord_change_prob, or so high that going on has log probability minus infinity) and the search is to branch on one chord. Then the chords and changes of a possible analysis are: cut the piece at its first note, at each onset where the model says so and at its end; label each segment with the likeliest class of its notes, or with the second likeliest if the likeliest is the label before. So two models with the same chord transition model, threshold and classifier give the same chords and changes, whatever their other networks, beams and forced keys.", "quantifier": "every two joint models with sound thresholds, every piece, durations and forced keys, every possible analysis returned", "why_tests_cant": "the claim compares a beam search over arbitrary networks with a function that does not search; tests would need every other network and beam size", "anchors": ["harmonic_inference/models/joint_model.py:HarmonicInferenceModel.get_harmony", "harmonic_inference/models/joint_model.py:HarmonicInferenceModel.get_chord_ranges", "harmonic_inference/models/joint_model.py:HarmonicInferenceModel.beam_search"]}
