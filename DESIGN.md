# Design: a Lean 4 model of harmonic-inference

The target is the pinned source in `/repo` (apmcleod/harmonic-inference, Python). It is read as text only.
The model is a set of small total Lean functions which follow the Python functions branch by branch.
Every definition carries the file and lines it mirrors. Python exceptions are values
(`Except PyErr α`), so error branches are part of every statement.

## Trusted base

* The Lean 4.33.0 kernel and the axioms `propext`, `Classical.choice`, `Quot.sound`
  (checked with `#print axioms` on every theorem listed in MANIFEST.json; many need fewer).
* The correspondence between each Lean definition and the Python lines cited in its comment.
* The following parts of Python / libraries are modelled by hand and trusted:
  Python integers = `Int`; `%` with a positive modulus = `Int.emod`; `Fraction` = `Rat`;
  lists and numpy vectors = `List`; dict with insertion order = association list;
  `heapq.heappush/heappop/heappushpop` = the CPython algorithm on lists (modelled, and its heap
  property proved, not assumed).
* Log probabilities are values of an arbitrary ordered additive group (or `Rat`), i.e. float rounding,
  NaN and infinities are outside the model.
* torch: `nn.LSTM` on packed sequences reads each sequence on its own, layer by layer, and
  `pack_padded_sequence`, `pad_packed_sequence`, `gather`, `transpose` and `squeeze` are as in
  Forward.lean. The weights (cells, embeddings, linear layers) are arbitrary functions; in the search
  model the networks are arbitrary functions as a whole.
* Not modelled: training (optimisers, gradients), the internals of pandas, h5py, music21 and ms3
  (their results are inputs of the model, or they are modelled by the operations that are used, as
  the comments say).

## Layout

| module | code modelled |
|---|---|
| `Verif/Py.lean` | exceptions, Python indexing |
| `Verif/Constants.lean` | `utils/harmonic_constants.py`, `data/data_types.py` |
| `Verif/Harmonic.lean` | `utils/harmonic_utils.py` |
| `Verif/ChordKey.lean` | `data/chord.py`, `data/key.py`, `data/vector_decoding.py` |
| `Verif/Heap.lean`, `Verif/Beam.lean` | `heapq`, `Beam`, `HashedBeam` |
| `Verif/State.lean` | `State` of `utils/beam_search_utils.py` |
| `Verif/Ranges.lean` | `get_chord_ranges`, forced changes of `models/joint_model.py` |
| `Verif/Forced.lean` | `_validate_and_load_forced_labels` |
| `Verif/Search.lean` | `beam_search`, `get_key_change_states` |
| `Verif/Rhythm.lean`, `Verif/Corpus.lean` | `utils/rhythmic_utils.py`, `utils/corpus_utils.py` |
| `Verif/Piece.lean`, `Verif/Eval.lean` | `data/piece.py`, `utils/eval_utils.py` |
| `Verif/Vectors.lean`, `Verif/Datasets.lean`, `Verif/ClassData.lean` | vectors of `Chord`, `Key`, `Note`; key and chord datasets of `data/datasets.py`; classifier data and pitch-based targets |
| `Verif/InitialChord.lean`, `Verif/StateInputs.lean` | `models/initial_chord_models.py` training; inputs of the models in the search |
| `Verif/Results.lean`, `Verif/Changes.lean`, `Verif/Forces.lean` | result tables and label tables of `utils/eval_utils.py`; chord changes; `utils/forces.py` |
| `Verif/FromSeries.lean`, `Verif/PieceKeys.lean` | `Key.from_series`, `Chord.from_series`; keys and chords of pieces |
| `Verif/MusicXml.lean`, `Verif/LabelsCsv.lean`, `Verif/XmlPiece.lean` | pieces from MusicXML scores and label files of `data/piece.py` |
| `Verif/Notes.lean`, `Verif/ChordInputs.lean` | notes of both loaders; inputs of the chord classifier |
| `Verif/MergeTies.lean` | merging of tied notes in the corpus |
| `Verif/CorpusReading.lean` | loading and aggregation of corpus tables |
| `Verif/Harmony.lean` | `get_harmony`: validation, ranges and search together |
| `Verif/ForceLabels.lean` | forces written into a MuseScore file: `extract_forces_from_musescore` with its regular expressions |
| `Verif/PyStr.lean` | Python strings: `strip`, `split`, `int`, `Fraction`; converters of the columns of the corpus tables |
| `Verif/ForcesJson.lean` | forces from a json file and their choice for a piece (`test.py`) |
| `Verif/OutputFiles.lean`, `Verif/KwargsJson.lean` | files written by `evaluate` and `annotate`; keyword arguments from json files |
| `Verif/ModelEval.lean` | `evaluate` and targets of the models |
| `Verif/TrainingSteps.lean` | `training_step` and `validation_step` of the models, `evaluate` of the pitch-based model |
| `Verif/GridSearch.lean`, `Verif/AverageResults.lean` | commands of `grid_search.py` and the command line of `test.py`; averages of logged accuracies |
| `Verif/LogState.lean` | debug output of an estimate (`log_state`) |
| `Verif/JointInit.lean` | creation of the joint model: hyperparameters of the scripts, checks of types, labels, dimensions |
| `Verif/DebugLog.lean` | class `DebugLogger`: debug messages about chord changes, classifications, key transitions, key sequences and chord priors |
| `Verif/H5Files.lean` | files written by `create_h5_data.py`, and how `test.py` and `train.py` read them |
| `Props/Conversion.lean` | conversion of chords and keys between pitch types (C08) |
| `Verif/TrainScript.lean` | the script train.py: classes, arguments, places of checkpoints; sizes of the chord sequence models |
| `Verif/WriteScores.lean` | the script write_to_score.py and the files that `write_labels_to_score` parses |
| `Verif/HarmonyCalls.lean` | `get_harmony` as a method on the attributes of the model; sequences of calls |
| `Verif/SearchWork.lean` | the beam search with a count of the states that each network is run on |
| `Verif/ClassTraining.lean` | the chord classification dataset from pieces to items, through an h5 file |
| `Verif/TransitionTraining.lean` | the chord transition dataset from pieces to batches, through an h5 file |
| `Verif/TablePiece.lean` | pieces from tables as a whole, as the datasets read them |
| `Verif/Printing.lean` | `str` and `repr` of notes, chords and keys |
| `Verif/Checkpoints.lean` | loading the models of a run from their checkpoints: `glob`, order of texts, classes |
| `Verif/Forward.lean` | the networks: `forward`, `run_one_step`, batches, hidden states |
| `Verif/ChordTraining.lean` | `ChordSequenceDataset` and the batches of the chord sequence model |
| `Verif/KeyTraining.lean` | key datasets through h5 files and the batches of the key models |
| `Verif/CourseData.lean` | the script create_ml_course_data.py |
| `Verif/TranspositionCnn.lean` | the transposition invariant classifier with the shapes of its tensors |
| `Verif/PitchTraining.lean` | pitch-based `ChordSequenceDataset` and the batches of its model |
| `Verif/CsmPrior.lean` | `State.add_csm_prior` for a CSM that is not pitch-based, and a search that runs its networks |
| `Verif/Inference.lean`, `Verif/LoadPieces.lean` | batches of states at inference; dictionaries of pieces and `load_pieces` of `utils/data_utils.py` |
| `Verif/Props/*.lean` | the property theorems, specs and witnesses, one file per group |

Specs are written beside the theorems in `Verif/Props` and do not use the helpers of the model.
Each theorem has an `example` that instantiates its hypotheses.

## Per property plan

| id | modelled | how it is proved |
|---|---|---|
| C01, C02 | label enumeration as nested list of (type, root, inversion); index by scan over types | lemma on index of a block in a concatenation of blocks, for an arbitrary reduction |
| C03 | key enumeration | arithmetic |
| C04, C05 | `transpose_pitch`, `absolute_to_relative` | integer arithmetic, `omega` |
| C06, C07 | strings as lists of characters, accidental stripping loops | induction on the accidental string |
| C08 | conversion through strings | C06 + table for the 35 pitches, lifted to chords and keys |
| C09 | the same conversion the other way | expected to be false for black keys: negation + partial |
| C10 | loops over accidentals | induction, unbounded interval |
| C11, C12 | string loops | induction on the string |
| C13 | recursion over "/" | induction on the chain |
| C14 | chord vectors as lists of 0/1 | tables + transposition lemma |
| C15–C19 | CPython heap algorithm, `Beam`, `HashedBeam` | invariant over operation sequences, refinement to a multiset |
| C20–C24 | `State` as an inductive chain | induction on reachable states |
| C25–C29 | worklist with min-heap, inner loop with breaks | loop invariants; characterisation of the inner loop by a declarative predicate |
| C30 | validation as decision procedure | case analysis; code defects recorded as negations |
| C31–C36 | measures as table with next links | absolute position function on the chain, induction on the walk |
| C37, C38 | label expansion, weighted sums | induction on the inputs |
| C39–C42 | vectors and one-hot reductions | on top of C01/C02 |
| C43–C46 | `Datasets.lean`, `InitialChord.lean` | Padding and numbering by list induction; monotone rounding; sums of counts |
| C47, C48 | `Search.lean`: search loop with arbitrary models and arithmetic | invariant over the search; accounting negation |
| C49 | cached key objects of `State` | induction on reachable states |
| C50 | the same model as C25 | greedy choice of the next compulsory change |
| C51 | CPython bisection | loop invariant on sorted lists |
| C52 | proportions of a range | C31 in both directions |
| C53 | links as options, rounds of removal | reachable rows are in every round; numbering of the links for the converse |
| C54 | bisection with a lower bound, Python slices | bisection invariant of C51 |
| C55–C57 | first matching note, windows, grouping | lists, telescoping sums, loop invariant |
| C58 | `copy`, hidden states as opaque values | chain invariant of C22 |
| C37 | `Eval.lean` | Label arrays by the change indices that cover an input; sums over inputs split into matching and other ones |
| C38 | `Eval.lean` | Rows of one kind are the changes of a run-length encoding; induction over inputs with the labels in force |
| C59 | `Harmonic.lean` | Split at `:` and `,`; table of all pitch names |
| C39 | `Vectors.lean` | Table of distinct indices; decoding of the old index (C01) and encoding of the new one, by the index of each element |
| C40, C60, C61 | `Vectors.lean` | Layout of the vector as blocks; one block is replaced. Lengths of dataset rows fit no pitch type |
| C41 | `Vectors.lean` | Layout of the vector as one-hot blocks; the first 1 of a block is its index |
| C42, C62 | `Vectors.lean` | Interval range by C05; one-hot blocks |
| C63-C65 | `Vectors.lean` | Table of the 35 spelled pitches; one-hot blocks and `set` |
| C66 | `Datasets.lean` | Chunks are consecutive parts of a zip; truncation undoes the padding |
| C67, C68 | `Datasets.lean` | Index arithmetic on concatenated lists; induction over key segments |
| C69, C70 | `InitialChord.lean` | Branches of the constructor; the greatest entry is a most frequent chord by C46 |
| C71–C73 | `Search.lean` | prefix sums; order of scores in a full beam; concrete counterexamples |
| C74 | Results.lean: `resultsDf` | label arrays by the lemmas of C37, texts by C02/C03, injectivity of the texts by C59; accuracies by comparing the sums |
| C75 | Results.lean: `labelDf` | the loop as two interleaved tracks of changes; induction over the sounding inputs |
| C76 | Changes.lean: `addedAndRemoved` | the texts are read back by induction over the changes; degrees, letters and ascending chords by exhaustive tables (35 roots, 35 tonics, 12 types); dictionaries by induction |
| C77 | Changes.lean: `labelsDf` | label arrays by the lemmas of C37 and C75, entries by C08 and C76 |
| C78 | FromSeries.lean: `keyFromSeries`, `chordFromSeries`, `chordsFromTable` | both directions by cases over the calls; MIDI by arithmetic modulo 12 along the numeral chain; the cache by an invariant over the rows |
| C79 | PieceKeys.lean: `pieceKeys`, `readChords`, `pieceHarmony` | masks as run-length covers; composition of two masks by `Covers`; chords by C78 |
| C80 | MusicXml.lean: `xmlStep`, `xmlLoop`, `xmlMeasures`, `xmlTable` | loop invariant over the rows in reverse order; the table is a `Chain`, so C31 applies |
| C81 | MusicXml.lean: `labelPosition`, `labelTimes` | search from the end; positions by C80, distance by C31, levels by C32 |
| C82 | MusicXml.lean: `noteEnd`, `xmlNote` | induction over the measures: start plus remaining time is constant |
| C83 | LabelsCsv.lean: `labelKey`, `labelDegree`, `labelChord` | accidentals by induction on their number; finite tables for degrees and modes; conversion through `pitchClass` as a homomorphism |
| C84 | XmlPiece.lean: `cleanLabels`, `xmlPiece` | composition of C36, C42, C55, C81, C83; masks as in C79 |
| C85 | XmlPiece.lean: `rowOfNumber`, `measureNotes`, `xmlNotes` | rows of a number are unique if numbers differ; onsets by C82 |
| C86 | ClassData.lean: `moveItem`, `reduceClass` | composition of C01, C14, C39, C64; branch by branch |
| C87 | ClassData.lean: `pitchTarget`, `pitchTargets`, `priorVector`, `pitchPrior`, `keptInTraining` | entries of chord vectors by C14; sums by induction |
| C88 | StateInputs.lean: `chordObj`, `csmInput`, `ktmInput`, `ksmInput` | chain invariant of C49 (cached keys are those of the labels), recursion over the chain, decoding by C42/C62 |
| C89 | StateInputs.lean: `Nets`, `UsesNets`; Lemmas/SearchInv.lean: `PhaseInv` | invariant of the phases of the search, one clause per phase; `ksm_split` shows that the rows given to the KSM continue those it has seen, also if its hidden state returns to an earlier value |
| C90 | Inference.lean: `ksmBatched`, `ktmBatched`, `csmBatched`, `keyReduce` | batches are consecutive parts; padding undone by the lengths (C43); C61 for training |
| C91 | Notes.lean: `noteFromSeries`, `pieceNotes`, `noteFromMusic21`, `NoteObj.toPitchType` | levels as in C78; spelling by C06, C07, C63 |
| C92 | LoadPieces.lean: `NoteObj.toDict` etc., `pieceOfDict`, `loadFromTables`, `loadDirectory` | C45 for the alignment of ids and pieces; position of an element in a filtered list |
| C93 | ChordInputs.lean: `chordNoteInput`, `pieceChordInput`, `chordNoteInputs` | distances by C35 and C56, places by C52, ranges by C36 and C55, entries by C63 and C65 |
| C94 | MergeTies.lean: `mergeTies`, `tieRound`, `updateStep`, `repopulate`, … | abstract steps on chains (extend, finish, move), simulation of every update, variant 2·in + out |
| C95 | MergeTies.lean: as C94 | invariants of the steps on chains: values by induction over the chain; finished chains match no tied in note and no chain that starts with 0 |
| C96 | MergeTies.lean: as C94 | refined steps that join notes of one staff and voice only; earliest note left has no predecessor |
| C97 | CorpusReading.lean: load_clean_corpus_dfs step by step on lists of rows | masks are filters as each row matches one measure; then C53, C33 and C94 |
| C98 | CorpusReading.lean: as C97 | C34 on the valid chords; the chords with a positive duration are linked by induction |
| C99 | CorpusReading.lean: aggregate_annotation_dfs as a fold | invariant of the fold |
| C100 | Harmony.lean: `get_harmony`, composed of Forced.lean, Ranges.lean and Search.lean | the (start, end) pairs of the ranges do not depend on the log probabilities, so C25 holds for any of them; then C47 and an invariant of the search (dead, or a change at every place passed) |
| C101 | Harmony.lean: as C100 | C47 and C30; the key changes only enter the validation |
| C102 | ForceLabels.lean: the regular expressions as lists of matches, `extract_forces_from_musescore` | what each expression finds in each command, by the characters that a command can contain |
| C103 | ForceLabels.lean: as C102 | the letter of the root is split off; accidentals, type and inversion are a finite table; then C06 and C01 |
| C104 | ForceLabels.lean: as C102 | C06 for the tonic |
| C105 | PyStr.lean: `str.strip`, `str.split`, `int`, `Fraction` of strings and the three converters | digits of a number are read back by induction on them; splitting at a separator that the parts do not contain |
| C106 | ForcesJson.lean: `load_forces_from_json` | C105 for the ranges; a dictionary to which new keys are added is the list of them |
| C107 | ForcesJson.lean: choice of the forces in `evaluate`, for every order of the set | the first key in the name is one of the keys in the name; any of them can be the first |
| C108 | OutputFiles.lean: paths, `stem`, the files written by `evaluate` and `annotate` in order | splitting of the name (C105 lemmas); a file to which only one value is written contains it; cancellation of endings |
| C109 | KwargsJson.lean: `load_kwargs_from_json` | induction on the fields and on reductions; the names of the members are finite tables |
| C110 | ModelEval.lean: batches, masks, weighted totals with NaN, `evaluate` of five models | induction on the batches: count times mean is the sum; NaN is absorbing; for the KSM all batches scaled by the same factor |
| C111 | ModelEval.lean: `get_data_from_batch` of the CSM on a row | each step described by its elements |
| C112 | ModelEval.lean: targets of the `ChordTransitionDataset` | each step described by its elements; C35 for the positions |
| C113 | GridSearch.lean: static arguments, product, names of directories, printed lines; words of a shell, options and defaults of `test.py`, pattern of the checkpoints | options are read compositionally (`Parses`); the last value of each attribute; splitting inverts joining for the words and for the names of directories |
| C114 | AverageResults.lean: `average_results` on lines, log of `evaluate` | lines as a datatype with a text; induction from the end of the log with an explicit form of the dictionary |
| C115 | no new definitions: Chord and Key comparison, one-hot indices, merged chords of C79 | injectivity of the chord index (C02) and of the key index (C03); runs of C79 |
| C116 | LogState.lean: `log_state` with its masks, slices and blocks | the mask gives a sorted list of boundaries, labels are constant between them; injective texts (C59); sums over consecutive intervals; share of C37 |
| C117 | JointInit.lean: defaults of the parser, `set_default_args` of both flags, `from_args`, start of both scripts | case analysis on flags and versions against the settings written as differences to the defaults |
| C118 | JointInit.lean: `check_input_output_types`, labels, input and output dimensions of the component models; rows of StateInputs.lean | the dozen assertions hold iff the types agree by role; lengths of the rows from C41, C42; bound on reduced indices from C39, C01 |
| C119 | JointInit.lean `relativeKeyLabels`, Search.lean `targetKey`, Vectors.lean `changeOneHot` | table of relative keys, C42, C47 |
| C120 | DebugLog.lean: `debug_chord_change_probs` | loop invariant: counters are lengths of filtered index lists; mask from C112 |
| C121 | DebugLog.lean: `debug_chord_classifications` | C54 for the chords of a range; loop invariant with the list of messages |
| C122 | DebugLog.lean: `debug_key_transitions`, `get_key_change_input_indices` | specification of bisection; loop invariant |
| C123 | DebugLog.lean: `debug_key_sequences` | as C122 |
| C124 | DebugLog.lean: `debug_chord_sequence_priors`, `debug_initial_chord_prior` | as C122; totality by cases on the first chord |
| C125 | H5Files.lean: `create_h5_data.py`, `get_dataset_splits`, reading in `test.py` and `train.py` | names are injective; a fold of writes read back; C45 for the splits and C92 for loading |
| C126 | Checkpoints.lean: `load_models_from_argparse`, `glob`, `sorted` of texts | pattern matching component by component (`pathMatch_iff`); last of the sorted matches; order of texts of numbers with equally many digits |
| C127 | Forward.lean: `forward` and `get_output` of the networks | a batch is a list of rows with their hidden states (`lstm_ok`); the packed LSTM is the LSTM of each row (`packedUni_eq`, by induction over the layers) |
| C128 | Forward.lean: hidden states of the states, `run_one_step` | reading a sequence is reading its first part and going on (`runUni_append`); columns of the tensor of hidden states (`itemHidden_states`) |
| C129 | ChordTraining.lean: `ChordSequenceDataset`, batches of the chord sequence model | rows of the segments by `segments_inv` (also used for C68), reduced targets by `C39_commutes` with the class 0 for the padding, masks by `C111_targets` |
| C130 | Search.lean, State.lean | invariant of the phases of the search (`PhaseInv`): the chain of nodes with the ranges of each chord, its charges and what is left behind by rejoining |
| C131 | Search.lean, State.lean, StateInputs.lean, CsmPrior.lean | invariant `soundPhases` of the phases of the search (chords near both keys, priors of the right length, labels of keys), totality of each phase and of both beams (`Total`), then of the networks' inputs |
| C132 | Search.lean, State.lean, CsmPrior.lean, Ranges.lean | `Filled`: each phase hands a state on to the end of each range unless the beam there already has one (`fits` refuses only if it has, `quickExit` too); induction along the path of ranges and over the steps |
| C133 | Search.lean, Beam.lean | `Analysis`: all that can be reached without beams; with room each phase makes exactly the states that follow (`step_room`), the number of states grows by at most 1 + `fanOut` at each step, induction over the steps (`Inv`); the failures by running the search without the quick exit or with plain beams, which is exact |
| C134 | Search.lean, Beam.lean, StateInputs.lean, CsmPrior.lean | Simulation: `Sim` asks that the parts of two searches take related states to related states (or raise the same), from which the heaps, both kinds of beams, all phases and the search do (`search_rel`); the relation is transposition of a state whose cached keys are pitch classes (`Up`), and each part is shown to respect it; class indices by C01/C02 |
| C135 | TrainingSteps.lean: `training_step` and `validation_step` of the models, `evaluate` of the pitch-based model with the shapes of its tensors | one batch: the definitions; dataset: count times mean is the sum (as C110); pitch-based `evaluate`: invariant that all rows of the total have 29 entries, so there is never exactly one entry |
| C136 | PitchTraining.lean: items of the pitch-based `ChordSequenceDataset`, `torch.roll` and `get_data_from_batch` of its model | items from C129's `item_cases`, flags from the last input column (`row_flag`, `change_flag`), rows from C87; roll: place i holds row i+1, the last place holds row 0, which is ignored |
| C137 | KeyTraining.lean: key datasets through h5 files, batches of the key models | items by C67's `getItem_eq` for any rows left of the piece; reading short pieces leaves the dataset unchanged, reading long ones keeps the number of their rows (induction over the batch); composed with C68 for the rows of the chords |
| C138 | CourseData.lean: the script create_ml_course_data.py | a composer has no `-` and no white space at its ends, so it is a first part of a name just if it is one of the composer of the name; files by composer are a permutation; induction over the visits up to the first piece |
| C139 | TranspositionCnn.lean: `TranspositionInvariantCNNClassifier` with the shapes of its tensors | a padded vector is three copies, so places are read modulo the length; counting values: 12 columns times channels would need 2n + 1 = 12 |
| C140 | Ranges.lean and Search.lean together: the search gets the ranges found with the same forced ids | a range from `get_chord_ranges` has one label (from `C26_exact`, onset by onset); each chord of the result covers such ranges (`segs_index`), so its notes have its label; the runs are expanded note by note |
| C141 | Harmony.lean, twice | forced labels at a note are those of the result there (`runItems_at`); `C100_chords_partial` and `C101_keys_partial` apply since chords change only at onsets and the changes are forced; equal notes give equal runs (`runs_unique`). The ranges that cover the chords of the result are ranges of the second run (`Row`, `Covered.chain`) |
| C142 | TrainScript.lean: class and arguments of train.py, `os.path.join`, versions of the logger, sizes of the weights of both chord sequence models | the version of a run is the number of earlier runs of its model (`next_all`, reverse induction); paths of training are paths of the pattern (`trainedPath_eq`, `ckptPath_inj`), then C126; CSM-P has 29 outputs, a CSM with the same parameters never (`out_ne`) |
| C143 | WriteScores.lean: the calls and the choice of files, on the files of OutputFiles.lean | a search for a literal is a part of the name (`C143_picks`); since names have their only full stop before the ending, a part with an ending is a final part (`infix_end`); the files of `evaluate` are known from C108 (`mem_evaluate`) |
| C144 | the models of C30, C26, C47 and C37 together | a forced note has its label in the result (`C100_chords_partial`), its segment covers it in the evaluation (`seg_at`), and the class of the annotated chord decodes to that chord (`chord_label`), so the note is right; a share with these notes is at least their duration (`share_le`); the forces made from an annotation fulfil the conditions (`runs_label`, `covers_next`) |
| C145 | `get_harmony` as a method that reads and writes the attributes of the model (`Attrs`), in the order of the statements; sequences of calls on one model | every attribute that is read is written before in the same call: the method is executed symbolically up to each point at which it can raise, and agrees with the function of C30 (`call`); induction over the calls |
| C146 | `SearchWork.lean`: the search once more, with the number of states each network is run on | the beams after the first stay within `beam_size` (`Sized`, from what an add does to a beam, C15 and C17); each phase of an iteration gives at most so many states for each that it gets (`branchAll_length`, `keyLoop_length`); the loop invariant `Bounded` sums over the starts of ranges |
| C147 | `ClassTraining.lean`: dataset, items and h5 file | C93 gives the rows of each chord, C86 the transposed item, C66 the h5 file; the items of a piece begin after those of the pieces before it (`flatMap_getElem?`); rows mark the pitches of their notes (`row_marks`), which is what `transpose_note_vector` needs |
| C148 | `TransitionTraining.lean`: dataset, h5 file, batch and mask | rows from C65 (`plain_right`), which have a positive sum if distances are not negative (`row_positive`); targets from C112 and C36: the change index of a chord is the number of notes before it; padding by C66 |
| C149 | `TablePiece.lean`: `get_score_piece_from_data_frames` as a whole, from the parts of C78, C79 and C91 | inside of measures the order of (measure, beat) is that of positions (`at_lt`, `at_le`); runs of chords that follow one another span their durations (`run_spans`); the mask of kept rows is `NewRow` (`fullMask_true`); then the hypotheses of C147 and C148 hold for the loaded piece |
| C150 | `TablePiece.lean`: `tableKeyed`, the piece as the chord sequence and key datasets read it; datasets as in C68 and C129 | each step either gives a result or a `ValueError` (`Accepts`, closed under `bind` and `mapM`); the rows of segments are those of all chords (`segments_inv`); keys that cover adjacent chords differ iff a key begins between them (`start_iff`) |
| C151 | `Printing.lean`: `__str__` and `__repr__` of the three classes, `get_chord_string` | texts are cut at characters which the part before does not contain (`cut`); positions end with their parenthesis (`posStr_cut`); numbers are read back (`signedOf_intStr`); pitch names are told apart by their letter and the number of accidentals (`pitch_iff`) |
| C152 | models of C37 and C134 | accuracies are shares of durations (C37), which are determined by the inputs that are right (`share_unique`); pitches in range are moved injectively (`up_inj`), so an input is right before iff it is afterwards (`chordRight_iff`, `keyRight_iff`); the labels of the moved analysis are moved (C134_labels, C134_analysis) |
| C153 | model of C46-C48 and C133 | every state put in a beam, plain or hashed, is made by `Next` from one that is in a beam (`step_sound`), so all are analyses; these do not depend on the size (`anySize`), and the exact search finds the best of them (C133); with fewer chords and keys to branch on the analyses are among those with more (`Analysis.narrow`) |
| C154 | model of C31, C55, C56, C78, C79, C91, C147-C149 | every function that reads positions commutes with moving them by a number of measures; order of positions and look-up of measures are kept (`findMeasure_shift`, `later_lt`), what is made of them does not contain them |
| C155 | model of C78, C79, C129, C136, C137, C150 | relative pitches depend on differences only (`absoluteToRelative_move`), so rows do; reading a row commutes with renaming its global key if both readings succeed (`seriesHarmony_move`), and masks of repeated chords and changed keys are kept |
| C156 | model of C12, C14, C31, C55, C56, C78, C79, C91, C147-C149 | every function that reads note values commutes with multiplying them: comparisons and quotients stay the same, sums and distances are multiplied; the cache of metrical levels is carried along with its keys multiplied |
| C157 | Search.lean, CsmPrior.lean | a simulation between the two searches (Lemmas/SearchSim.lean), state by state, with log probabilities related by the map of units |
| C158 | Ranges.lean, Search.lean | from the exact descriptions of ranges (C26) and of exhaustive searches (C133) |
| C159 | PieceCaches.lean, Search.lean, StateInputs.lean, Datasets.lean, ChordTraining.lean | what the models have seen (C128) and the rows of the datasets (C79, C150) are compared chord by chord; the caches are those of the measures of the piece |
| C160 | Datasets.lean, TablePiece.lean, Vectors.lean | keys at both sides of a change by `Covers` (C79, C150), then C68 and C42 |
| C161 | PieceAnalysis.lean | the end of the piece is all that is read of the labels; `rows_eq` identifies the analysis with that of Harmony.lean; shifts by Renumber (C154) |
| C162 | PieceAnalysis.lean | note vectors of moved notes entry by entry (`toVec_move`), windows and forced labels commute with the move, then C134 for the search |
| C163 | Forced.lean, PieceAnalysis.lean | `load_ok`: when writing the labels succeeds and what each note gets, by induction; all other checks and the change probabilities depend on membership only |
| C164 | PieceAnalysis.lean, ClassTraining.lean, TransitionTraining.lean | order and distance of positions within their measures are those of their distances from the beginning (C31), so that all comparisons and lengths agree; what else is read of notes has no positions |
| C165 | Eval.lean | the accuracies are shares of the duration (C37) of the inputs at which the labels agree; agreeing is an equivalence relation; sums over the duration cache |
| C166 | Harmony.lean, Search.lean | an invariant of the phases of the search: the newest node has the probability it was judged by, and rejoining forgets it together with the key; chord changes are ends of ranges |
| C167 | Harmony.lean, Search.lean, Eval.lean | C166 (no change between the two notes, so one label for both) and C37 (accuracies are shares of the duration); a note that does not count takes its duration from the sum |
| C168 | Harmony.lean, Search.lean | the stretches are the ranges the search took (`Covered`); `run_classified` says what each range was classified as; `FitsRange` says that a chord is among those branched on |
| C169 | Search.lean, Harmony.lean | an invariant of the phases of the search (`keyed`): each new key was in the output of `keyChanges` of a state like it; `keyLoop_rank` by induction on the relative keys |
| C170 | Search.lean, Harmony.lean | from C166_divides, C100_onsets and the invariant `picks` of C168: no range ends inside a chord, so each chord is offered by one range; induction on the nodes (`linked_of_picks`, `linked_labels`) |

## Disagreements between code and property

Each is a theorem about the model of the code; the property is then claimed only in part.

* C09: converting a MIDI pitch to TPC raises `KeyError` for the five black keys (`C09_fails`).
* C15: a beam of size 0 raises `IndexError` on the first unforced add (`C15_size_zero`).
* C19: `HashedBeam.empty` replaces the dict by a list, so the next add raises (`C19_hashed_fails`).
* C23: if the key transition cost was charged twice (see C48), rejoin gives back only one of the two
  charges (`C23_charged_twice`).
* C28: `get_chord_ranges` counts the duration of the first note twice, and never that of the last note
  (`C28_first_range_fails`, `C28_last_range_fails`).
* C29: a forced change inside a group of simultaneous notes is ignored (`C29_ignored_inside_onset`).
* C30: a forced non-change at 0 is compared to the label of the last note (`C30_fails_at_zero`); a chord
  non-change at a place where only one side has a forced key raises `TypeError` (`C30_fails_key_label`);
  negative indices and label ranges beyond the end are accepted (`C30_fails_negative`,
  `C30_fails_beyond_end`). All rejections are seen as `TypeError`, `AttributeError` or `KeyError`, since
  `ArgumentError` of argparse is built with the wrong arguments.
* C51: a position after the last note raises `IndexError`, not the intended `ValueError` (`C51_no_note`).
* C34: if all chords are of one file, `np.roll` compares the last chord with the first one, no chord is seen as the last one, and the last chord gets no duration (`C34_fails_single_file`).
* C53: if all measures are of one file, no measure is a start measure, and `remove_repeats` removes every measure (`C53_fails_single_file`).
* C54: if the range starts before the first chord, the index is -1 and the slice is taken from the end of the list (`C54_fails_before_first`).
* C37: inputs before the first chord of the piece keep the 0 of `np.zeros` and are compared with the first chord class (`C37_before_first_chord`).
* C40: `reduce_chord_types` starts from zeros and skips types mapped to themselves, so these lose their bit (`C40_wiped`).
* C61: the datasets reduce rows with a key change part without giving the pitch type; the inference from the length raises `ValueError` for all rows (`C61_datasets`).
* C63: `get_midi_note_number` multiplies octaves by the number of TPC pitches for MIDI pitches (`C63_midi`).
* C64: `transpose_note_vector` checks the range of the old pitch, not of the new one (`C64_out_of_range`).
* C65: `decode_note_vector` raises for every vector (`C65_decoder`).
* C66: `to_h5` pads the inputs of key datasets by piece, but `h5_to_dataset` cuts them by the lengths of the items (`C66_key_data`, `C66_first_piece`).
* C67: the longest piece is not copied and not padded by `KeyHarmonicDataset.__getitem__`: the last item of a `KeySequenceDataset` is an `IndexError`, and in a `KeyTransitionDataset` the stored rows are overwritten (`C67_sequence_index_error`, `C67_overwritten`). Its items also have one row less than the others.
* C69: `SimpleInitialChordModel` cannot be loaded with a reduction or without inversions: `np.zeros` is given a list of labels (`C69_reduced`).
* C47: a range with several forced chords, or a chord with several forced keys, gets the first element of the *set* of them, which may not be the one at its first note (`C47_forced_chord_fails`, `C47_forced_key_fails`).
* C48: joint_model.py:1067 charges the cost of keeping the key to `change_state` (`C48_both_fails`).
* C71: if the probabilities of all classes do not add up to the target, only the first is tried (`C71_unreached_fails`).
* C72: the quick exit is also taken if the beam has room, and ignores that a rejoin gives back costs (`C72_room_fails`, `C72_rejoin_fails`).
* C73: the loop over chords also stops after a rejoin that does not fit (`C73_rejoin_fails`).
* **C75** (`get_label_df`): a row `--` (the estimate goes on, the annotation has changed) does not say whether it is about the key or the chord; two pieces with opposite errors have the same table (`C75_ambiguous`). Inputs before the first chord of the piece keep the label -1, which names the last chord class, so that an estimate of that class is green (`C75_before_first_chord`). The guard `len(piece.get_chords()) > 0` does not make the function work for pieces without annotations: their chords are None, `len(None)` is a `TypeError`; with an empty list the durations cannot be computed (`C75_unannotated`, `C75_no_chords`).
* **C76** (`get_added_and_removed_pitches`): the result is keyed by the removed pitch, and additions have the empty string, so of several additions only the last is kept (`C76_lost`; I(911) loses its ninth, `C76_fails_additions`). After a `+` the loop over the changes does not go on to the next change but appends a second entry, so that the removed pitches of all later changes are shifted by one (`C76_fails_plus`: in I(+24) the second is lost and the fourth replaces nothing). A tone out of the range of pitches is left out of the ascending chord, and the next one is removed in its place (`C76_fails_range`).
* **C79** A piece of which exactly one chord can be read raises a `TypeError` (`np.squeeze` of a single row gives a scalar, `C79_fails_one`). A key that is annotated only at a chord equal to the one before it is lost with the merged chord (`C79_fails_pivot`).
* **C80** A MusicXML score of a single measure raises an `IndexError` (`C80_fails_one`): the epoch is read from the second measure.
* **C82** `Note.from_music21` subtracts the metrical offset of the first measure from the duration and adds that of the last one twice. Notes from a pickup end at the wrong place (`C82_fails_pickup`); the error is exactly the difference of the offsets (`C82_position`).
* **C83** `Chord.from_labels_csv_row` reduces the chord type after it has computed inversion and bass, and drops the inversion without changing the bass. With `use_inversion=False` a chord has inversion 0 over a bass that is not its root (`C83_fails_inversion`); with a reduction to triads a seventh chord in third inversion becomes a triad with inversion 3, which has no class (`C83_fails_reduction`). `Chord.from_series` does neither.
* **C85** `get_notes_from_music_xml` finds the row of a measure by its number and takes the first one. If a number occurs twice (a measure divided by a repeat, several pickups), the notes of the second measure are put into the first one (`C85_fails_number`).
* **C86** `ChordClassificationDataset.reduce` adds the transposition to MIDI roots without taking the result modulo 12, so chords that pass B are thrown away (`C86_midi_fails`). The range of transposed notes is not checked (C64): the target is transposed, and a note that leaves the range loses its pitch (`C86_notes_fail`).
* **C87** For the pitch-based chord sequence model, the targets number spelled pitches from -14 (`relative_root -= MIN_RELATIVE_TPC`), but `State.add_csm_prior` does not: every prior is read 14 places too low (`C87_prior_tpc_fails`). Chords with a pitch 15 to 20 fifths above the tonic fail an assertion while loading the data (`C87_high_fails`); pitches below -14 are lost silently. `flat_mask = flat_targets[:, 0] == 0` leaves out not only rows of -100 but all rows that mark the first pitch: with MIDI pitches all chords that contain the tonic (`C87_training_fails`).
* **C90** `get_key_change_probs` and `get_key_change_states` call `KeyTransitionDataset([], kwargs)` and `KeySequenceDataset([], kwargs)`: the second parameter is the transform, so the reduction and the setting of inversions of the model are never applied (`C90_reduction_fails`). `run_csm_batched` takes the `reduce` of a `ChordTransitionDataset` with the settings of the KTM, which does nothing.
* **C91** `Note.from_music21` takes the octave of music21 (C4 is middle C; B♯3 has octave 3), `Note.from_series` takes `midi // 12` (middle C has octave 5, B♯3 too). The note numbers of MusicXML pieces are one octave too low, B♯ two octaves, and C♭ is right (`C91_fails_xml`, `C91_fails_loaders`). A table with one readable note stops the program (`C91_fails_one`, as in C79).
* **C92** `load_pieces` appends to `csvs` only if the label file exists, so labels are shifted against scores (`C92_fails_shift`), and a directory of scores without labels cannot be loaded at all: `IndexError` (`C92_fails_unlabelled`). create_h5_data.py numbers the labelled scores, load_pieces all scores (`C92_fails_ids`). If `piece_dicts_path` does not exist, `piece_dicts` is unbound (`C92_fails_missing`). `to_dict` of a piece without chords iterates over None (`C92_fails_unannotated`).
* **C93** A chord of duration 0 gives ones if it begins with a note (a fix for errors in the tables, note.py:253), but an exception if it begins between notes: the fix is missing in the other branch (`C93_fails_zero`).
* **C95** A chain that starts with an unmatched note of tied 0 is not finished when it reaches a note of tied -1, only when its tied value is null. A note of tied -1 or 0 that starts at its end is merged into it, although the tie had ended, and after a second -1 the note looks untied (`C95_fails`).
* C97: `load_clean_corpus_dfs` fails for a corpus with a single file, and for `count=1`: `remove_repeats` drops all measures (see C53), and `measures_df` without rows leads to an IndexError. With a `count`, `chords_df.loc[files_df.index]` raises a KeyError if one of the first files has no chords, although files without chords are fine without a `count`.
* C98: if only one file has valid chords, its last chord has no duration and no next place (see C34).
* C100: a forced chord change is violated if the same chord is forced (or the only one branched on) before and after it: the state rejoins with log probability minus infinity, and nothing stops such a state from being returned. A forced chord on the last onset is not compared to the ones before it when ranges are made, so that one range may have two forced chords, of which an arbitrary one is taken.
* C101: `forced_key_changes` and `forced_key_non_changes` are validated, but neither `get_chord_ranges` nor `beam_search` reads them: they have no effect on the result.
* C103: in `CHORD_REGEX` the names of triads come before those of seventh chords, so `M` is matched in `Mm7` and the inversion is not reached; a group that is not matched is `NaN` in the table of `str.extract`, and `len(NaN)` raises `TypeError`. Forced chords can only be given as triads or half-diminished seventh chords with an inversion (`C=CM_0`); one other label and no force of the score can be read.
* C107: the keys of the json file are searched in the name of the piece with `in`, in the order of a set of strings, which is different in each run: for keys `K279-1` and `K279-10` the piece `K279-10` gets the forces of one or the other.
* C108: `annotate` drops the folders of the pieces, although its documentation says that labels go into a sub-directory according to the name: pieces with the same file name in different collections overwrite each other. Both scripts take `name.split(" ")[-1]` as the path, so paths with spaces are cut. `evaluate` writes the labels of MusicXML pieces to files that end in `.mxl`.
* C109: `load_kwargs_from_json` looks up `PieceType.*` in `PitchType`: `PieceType.SCORE` and `PieceType.AUDIO` raise `KeyError`, `PieceType.MIDI` silently becomes `PitchType.MIDI`.
* C110: `KeySequenceModel.evaluate` weights batches with `len(batch)`, the number of fields of the dictionary, so all batches count equally and the points of a small last batch count too much. A batch in which nothing is measured makes the accuracy of `ChordTransitionModel`, `KeyTransitionModel` and `ChordSequenceModel` NaN. `ChordClassifierModel.evaluate` does not ignore the target -1, as training and validation do. `PitchBasedChordSequenceModel.evaluate` (marked TODO; not modelled) multiplies a tensor of losses and calls `.item()` on it, which raises.
* C113: `grid_search.py` prints the arguments without quotes; with a blank in a path (`--input "my data"`) the printed lines are refused by `test.py`. A fraction as `--max-chord-length` makes the directory a nested one (`…mcl-1/2_…`), but still a different one for each combination.
* C116: `log_state` is also called for pieces without annotations (annotate.py:162-163, test.py:295-296 if the logging level is DEBUG); there `gt_changes` is None and the call raises a `TypeError`, so that with `--verbose` no unlabelled piece can be annotated.
* C117: annotate.py defines `set_default_args` but only test.py calls it (test.py:554). The README gives `python annotate.py --checkpoint checkpoints-best --csm-version 2 --defaults` as the way to run the best model; it runs with the parser's defaults, which differ from the settings of the paper for every version.
* C118: `check_input_output_types` (joint_model.py:323-400) checks neither the pitch type of the chords of the KTM nor that chords and keys have the same type, although the search makes both parts of each row with `CHORD_OUTPUT_TYPE` (1135-1136, 1208-1209, 1342-1343). Such combinations are accepted and each input then has a wrong length.
* C120: `debug_chord_change_probs` divides by the number of changes and of non-changes (joint_model.py:1929-1940) without the test for 0 that the other debug functions have; with `--verbose`, every piece that is annotated with a single chord ends with a ZeroDivisionError.
* C121: `debug_chord_classifications` requires `range_end in change_indices` (joint_model.py:1987), which is false for the last chord, whose range ends at the end of the piece; it divides by the number of counted ranges without a test (2038-2043).
* C122: `len(chord_changes) < new_chord_index` (joint_model.py:1448) is never true; `debug_key_transitions` then compares the chord of a state with the annotated chord before the index, although the chord of the state begins at it. The same test is written correctly for the keys (1458). Also, "Previous change is the same for all states here" (1438) does not hold for states which are the result of `rejoin`.
* C123: the message of `debug_key_sequences` joins the labels of the chords of `[state.prev_state, state]` (joint_model.py:1662-1665); for a state in the first chord, `prev_state.chord` is None and the join raises a TypeError. Such states get there because a forced key in the first range sets `can_change` (1044-1053) without asking `can_key_transition`.
* C125: create_h5_data.py writes no files for a split without pieces and does not remove those of an earlier run with the same seed. After `--splits 8 1 1` and then `--splits 1 0 0` the validation pieces are also in the training file (C125_fails_stale).
* C125: evaluating a split without pieces (no files) ends in an UnboundLocalError of `piece_dicts` in load_pieces (C125_fails_empty).
* C126: `sorted(glob(...))[-1]` (data_utils.py:233-243) is the last checkpoint in the order of texts, so version_9 is preferred to version_10; training ten times (0 to 9) freezes the choice of `annotate.py` and `test.py` at version 9.
* C127: `.squeeze()` (chord_classifier_models.py:311) also removes the dimension of the batch if it is 1, and `torch.cat(..., 1)` (314) then raises. A piece whose number of chord ranges leaves remainder 1 modulo `valid_batch_size` (512) cannot be analysed, and training stops at a last batch with one chord.
* C129: training a chord sequence model with `input_reduction` or without `use_input_inversions` raises `ValueError` at the first item (C61), and so does a reduction of the outputs to triads with inversions as soon as a piece has a seventh chord in third inversion.
* C130: where the KTM leaves the choice between changing and keeping the key (`min_key_change_prob <= p <= max_no_key_change_prob`), the score of an analysis is not the sum of its costs: keeping the key is free, changing it is charged both costs (C48), and the cost of a change stays in the score when the chord is rejoined, so the same analysis gets different scores with different beam sizes.
* C131: `chord_transition` computes the bass note of every class it branches on; classes of tonal pitches whose bass lies outside of the range of pitches (for example the first inversion of the major chord on the highest root) are labels, but raise a ValueError that ends the search.
* C131: `add_csm_prior` reduces the class of the chord to the outputs of the CSM; with `use_output_inversions` and a reduction from seventh chords to triads, a third inversion has no reduced class and raises a ValueError (C39).
* C132: with tonal pitch classes a search may return None although every note is a candidate range with a chord: `chord_transition` drops chords far from the key, and beams may hold only states in keys far from the next chord.
* C133: with beams that are never full the search still misses the best analysis: the quick exit (joint_model.py:968-974) compares with the worst state of the beam without asking whether the beam is full (`C133_exit_fails`, -109 in place of -14), and hashed beams forget all but the last chords (`C133_hash_fails`).
* C134: the analysis of a transposed piece need not be the transposed analysis: ties between keys are broken by the order of the keys (`C134_ties_fails`), and of different keys forced on one chord the first of a set of indices is taken, joint_model.py:1042-1046 (`C134_conflict_fails`).
* C135: `evaluate` of the pitch-based chord sequence model raises on every dataset, chord_sequence_models.py:537 and 551 (`C135_pitch_evaluate_fails`), and with MIDI pitches its training too, line 422 (`C135_pitch_midi_fails`); a batch where nothing is measured has loss NaN (`C135_nothing_fails`, `C135_one_chord_fails`); transpositions out of range are ignored by training and validation of the chord classifier, but make `evaluate` raise (`C135_ccm_fails`).
* C136: with MIDI pitches, chords that contain the tonic are not measured in training of the pitch-based model (`C136_measured_fails`); a spelled chord with a pitch 15 to 20 fifths above the tonic stops training (`C136_high_fails`).
* C137: consequence of C66 and C67 for training: after the h5 file, items of the first piece have zeros in place of its chords from the first key change on (`C137_first_piece_fails`, `C137_modulating_fails`), and items of the longest piece cannot be in a batch with others (`C137_mixed_fails`).
* C138: create_ml_course_data.py adds lists to sets (68 and 85), so it ends with a TypeError at the first piece, after having removed the old data (`C138_lines_fails`). Files are visited twice where one composer is a first part of another one (`C138_twice_fails`), and never where the name of a corpus begins with white space (`C138_space_fails`).
* C139: `TranspositionInvariantCNNClassifier.forward` always raises: the circular padding makes 2n + 1 places instead of n (`C139_rows_fails`), and the last `reshape` is given a float (`C139_forward_fails`). The class is not used by the scripts.
* C140: with labels forced on all notes the result may differ from them: a change of label at the last onset is overlooked by `get_chord_ranges`, which checks the label before each position (`C140_last_fails`); a key change under a repeated chord is lost by `rejoin` (`C140_key_fails`).
* C141: forcing the chords and keys of a result, but not its chord changes, on the same piece with the same models gives another result (`C141_changes_needed`; the labels of the last onset are overlooked, as in C140).
* C142: after ten runs of train.py for one model, the eleventh to ninetieth are never loaded by default, since the checkpoints are sorted as texts (train.py:281-290, data_utils.py:233; `C142_latest_fails`).
* C142: `learning_rate` in the file of `--model-kwargs` is always a TypeError, since train.py passes `learning_rate=ARGS.lr` as well (train.py:153-205; `C142_rate_fails`).
* C143: write_labels_to_score searches an unanchored, unescaped regular expression: for a piece `op18` the files of `2op18` in the same folder are parsed as well, and a full stop in a name matches any character (eval_utils.py:926; `C143_own_fails`, `C143_dot_fails`).
* C143: write_tsvs_to_scores also tries the tables `_results.tsv` and `_results_midi.tsv` as labels; labels of MusicXML pieces are written to `.mxl` files, which it overlooks; and for the output of annotate.py it looks for all scores in the directory of annotations itself (write_to_score.py:34-42, test.py:172-180; `C143_calls`, `C143_xml_fails`, `C143_annotate_fails`).
* C144: forcing the annotation of a piece does not guarantee that it is the result: if the last onset has a chord of its own without a forced change, the chord before it can be replaced by it, and a key change inside of a chord is lost (as in C140; `C144_last_fails`, `C144_key_fails`).
* C145: rejected forced labels leave `current_piece` set. The `except ArgumentError` at joint_model.py:588-591 should reset it, but making an `ArgumentError` from a string raises another exception, which is not caught (`C145_reset_fails`). The following calls are not influenced by it (`C145_calls`).
* C147: transposed items of the chord classification dataset have note vectors which are those of no note: the pitch class is moved, but the height (MIDI number / 127), the octave and the relative height are not (`C147_rows_fail`). A piece with an empty list of chords makes the whole dataset raise `IndexError` (`C147_unlabelled_fails`).
* C148: `get_data_from_batch` of the transition model finds padding by the sum of the vector. A note that begins long after the end of the last chord has a negative distance to the end, and is left out of the loss like padding (`C148_end_fails`). A chord that begins after all notes makes the last note a target 1 (`C148_last_fails`).
* C149: `get_score_piece_from_data_frames` drops rows that cannot be read (`@none`, or unknown labels) before it joins equal chords. Two equal chords around such a row become one chord that begins with the first and ends with the second, while its duration is the sum of both without the row between (`C149_unread_fails`). Places of notes in the chord, which are inputs of the classifier (C93), are divided by this duration.
* C150: a chord whose root or bass is more than 14 fifths from its tonic cannot be encoded by `to_vec(pad=False)`, and `ChordSequenceDataset` does not catch this: no dataset can be made from pieces of which one has such a chord, although the piece can be loaded and the key datasets (which pad to 19 fifths) can be made (`C150_distant_fails`).
* C153: a larger beam is not always better. A beam for one state may find an analysis that a beam for two has dropped (`C153_fails`): the second place of the larger beam is taken by a state that has successors which fill the next beam and are worse at the end. This is in the nature of beam search, and nothing in the code relies on the opposite; it matters to whoever raises `--beam-size`.
* C158: a greater `max_no_key_change_prob` - more ways to go on - may make the best analysis worse, even if nothing is pruned. If a state may keep its key as well as change it, joint_model.py:1056-1067 charges the copy that changes its key with both the cost of changing and the cost of not changing (C48); if it must change its key, only with the cost of changing.
* C159: the search does not show the models what they are trained on for chords that begin or end in a rest, since its durations and metrical levels are those of notes (joint_model.py:567-573). For the last chord the offset level is that of the last note in the list (joint_model.py:573), even if this note ends before the chord does.
* C160: with `use_relative=False` the changes of key that are learnt are wrong if a local key begins with an applied chord. Key changes are found with the local keys (piece.py:732), but `get_key_change_vector` and `get_key_change_one_hot_index` (key.py) and `to_vec(relative_to=key)` always use the relative tonic and mode of the first chord of each key. A change from C major to G major whose first section begins with V/V is learnt as no change (`C160_applied_fails`).
* C161: the analysis of a labelled piece can depend on the labels. The end of a piece is the offset of its last chord if it has labels and the latest offset of its notes otherwise (piece.py:429-431, 480-484), so the duration of the last note as seen by the chord transition model and the chord classifier (and the weights of the caches) depends on where the annotated last chord ends. `C161_end_fails` has networks for which other chords and another key are found.
* C162: the search is not equivariant if no key is forced, as equally good first keys are told apart by their index only (`C162_key_fails`). The vectors of moved notes also differ in the octave above the lowest note (note.py:276-280): it is the difference of two octave numbers, not of two pitches, so it changes when one of two notes crosses a boundary between octaves; the theorem lets this entry change in any way (`MovedRow`), hence asks for networks that do not depend on it.
