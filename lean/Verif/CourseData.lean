import Verif.Datasets
import Verif.Checkpoints
import Verif.KwargsJson

/-!
# The course data

Model of the script /repo/create_ml_course_data.py. Tables are read by `load_clean_corpus_dfs` and pieces are made by
`get_score_piece_from_data_frames`, which are modelled elsewhere: here a file has the name of its corpus and a piece or
an exception.
-/

namespace Verif

/-- A row of the table of files, and the piece which is made of the file or the exception which is raised
(create_ml_course_data.py:44-57). -/
structure CourseFile where
  corpus : Str
  piece : Py KeyedPiece

/-- Text files by name. -/
abbrev TextFiles := List (Str × Str)

/-- The directories `key` and `chord`, and the vocabularies beside them. -/
structure CourseFiles where
  key : TextFiles
  chord : TextFiles
  vocab : TextFiles
  deriving DecidableEq

/-- create_ml_course_data.py:16: `name.split("-")[0].strip()`. -/
def composerOf (corpus : Str) : Str := strip ((pySplit ['-'] corpus).headD [])

/-- create_ml_course_data.py:16 `composers`. -/
def composers (files : List CourseFile) : List Str := sortTexts (files.map fun f => composerOf f.corpus).dedup

/-- create_ml_course_data.py:37 `composer_df`. -/
def filesOfComposer (files : List CourseFile) (composer : Str) : List CourseFile :=
  files.filter fun f => composer.isPrefixOf f.corpus

/-- create_ml_course_data.py:35-43: the files in the order of the two loops, with the composer of the outer loop. -/
def courseVisits (files : List CourseFile) : List (Str × CourseFile) :=
  (composers files).flatMap fun c => (filesOfComposer files c).map fun f => (c, f)

/-- `file.write` to a file opened with `"a+"`; opening alone writes the empty text. -/
def appendTo (name text : Str) : TextFiles → TextFiles
  | [] => [(name, text)]
  | (n, t) :: fs => if n = name then (n, t ++ text) :: fs else (n, t) :: appendTo name text fs

/-- `Path.write_text`. -/
def writeText (name text : Str) (fs : TextFiles) : TextFiles := fs.filter (fun f => f.1 ≠ name) ++ [(name, text)]

/-- `set.add` of a list, which has no hash. -/
def addList (_labels : List Str) (_symbols : List Str) : Py (List Str) := .error .typeError

/-- `str(mode).split(".")[1]`. -/
def modeName : KeyMode → Str
  | .major => ['M', 'A', 'J', 'O', 'R']
  | .minor => ['M', 'I', 'N', 'O', 'R']

/-- `str(chord_type).split(".")[1][:3]`. -/
def typeName (t : ChordType) : Str := ((chordTypeNames.find? fun x => x.2 = t).map (·.1)).getD [] |>.take 3

/-- `",".join(symbols)`. -/
def joinWith (sep : Str) (symbols : List Str) : Str := List.intercalate sep symbols

/-- create_ml_course_data.py:61-65. -/
def keySymbol (k : Key) : Py Str := do
  let degree ← scaleDegreeFromInterval (k.localTonic - k.globalTonic) k.globalMode .tpc
  .ok (degree ++ [':'] ++ modeName k.localMode)

/-- create_ml_course_data.py:78-82. -/
def chordSymbol (mode : KeyMode) (c : Chord ℚ) : Py Str := do
  let degree ← scaleDegreeFromInterval (c.root - c.keyTonic) mode .tpc
  .ok (degree ++ [':'] ++ typeName c.chordType)

/-- The labels of pieces in major and in minor, create_ml_course_data.py:32-33. -/
structure ModeLabels where
  major : List Str
  minor : List Str

/-- `labels[mode].add(symbols)`. -/
def ModeLabels.add (l : ModeLabels) (mode : KeyMode) (symbols : List Str) : Py ModeLabels :=
  match mode with
  | .major => (addList l.major symbols).map fun s => { l with major := s }
  | .minor => (addList l.minor symbols).map fun s => { l with minor := s }

/-- create_ml_course_data.py:60-69: the labels after a piece, and the line which is written. -/
def keyLine (labels : ModeLabels) (p : KeyedPiece) : Py (ModeLabels × Str) := do
  let symbols ← p.keys.mapM keySymbol
  let first ← pyGet p.keys 0
  let labels ← labels.add first.globalMode symbols
  .ok (labels, joinWith [','] symbols ++ ['\n'])

/-- create_ml_course_data.py:76-86: one key of a piece. -/
def chordLine (labels : ModeLabels) (p : KeyedPiece) (r : Nat × Nat) : Py (ModeLabels × Str) := do
  let first ← pyGet p.chords r.1
  let symbols ← ((p.chords.take r.2).drop r.1).mapM (chordSymbol first.keyMode)
  let labels ← labels.add first.keyMode symbols
  .ok (labels, modeName first.keyMode ++ [';'] ++ joinWith [','] symbols ++ ['\n'])

/-- The files and the labels while the script runs, create_ml_course_data.py:20-33. -/
structure CourseState where
  files : CourseFiles
  keyLabels : ModeLabels
  chordLabels : ModeLabels

/-- create_ml_course_data.py:72-86: the loop over the keys of a piece; an exception comes with what has been written. -/
def chordLines (name : Str) (p : KeyedPiece) : List (Nat × Nat) → CourseState → Except (PyErr × CourseFiles) CourseState
  | [], st => .ok st
  | r :: rs, st =>
    match chordLine st.chordLabels p r with
    | .error e => .error (e, st.files)
    | .ok (labels, line) =>
      chordLines name p rs
        { st with chordLabels := labels, files := { st.files with chord := appendTo name line st.files.chord } }

/-- `f"{composer}.csv"`. -/
def csvName (composer : Str) : Str := composer ++ ['.', 'c', 's', 'v']

/-- create_ml_course_data.py:59-86: a piece which has been made. -/
def coursePiece (composer : Str) (p : KeyedPiece) (st : CourseState) : Except (PyErr × CourseFiles) CourseState :=
  let name := csvName composer
  let files := { st.files with key := appendTo name [] st.files.key }
  match keyLine st.keyLabels p with
  | .error e => .error (e, files)
  | .ok (labels, line) =>
    let files := { files with key := appendTo name line files.key }
    let files := { files with chord := appendTo name [] files.chord }
    chordLines name p (p.keyChanges.zip (p.keyChanges.tail ++ [p.chords.length])) ⟨files, labels, st.chordLabels⟩

/-- create_ml_course_data.py:44-86: the body of the loops; a file whose piece cannot be made is left out (54-57). -/
def courseStep (st : CourseState) (v : Str × CourseFile) : Except (PyErr × CourseFiles) CourseState :=
  match v.2.piece with
  | .error _ => .ok st
  | .ok p => coursePiece v.1 p st

/-- create_ml_course_data.py:35-86: the loops. -/
def courseLoop : List (Str × CourseFile) → CourseState → Except (PyErr × CourseFiles) CourseState
  | [], st => .ok st
  | v :: vs, st =>
    match courseStep st v with
    | .error e => .error e
    | .ok st => courseLoop vs st

/-- `"\n".join(sorted(labels))`. -/
def vocabText (labels : List Str) : Str := joinWith ['\n'] (sortTexts labels)

/-- create_ml_course_data.py:88-98: the six vocabularies. -/
def writeVocabs (st : CourseState) : CourseFiles :=
  let three (what : Str) (l : ModeLabels) (fs : TextFiles) : TextFiles :=
    writeText (what ++ "_vocab_full.txt".toList) (vocabText (l.minor ++ l.major).dedup)
      (writeText (what ++ "_vocab_minor.txt".toList) (vocabText l.minor)
        (writeText (what ++ "_vocab_major.txt".toList) (vocabText l.major) fs))
  { st.files with vocab := three "key".toList st.keyLabels (three "chord".toList st.chordLabels st.files.vocab) }

/-- create_ml_course_data.py: the whole script. `old`: the vocabularies that are there before; the directories `key` and
`chord` are removed (20-26). The result: the files, and the exception which ends the script. -/
def createCourseData (files : List CourseFile) (old : TextFiles) : CourseFiles × Option PyErr :=
  match courseLoop (courseVisits files) ⟨⟨[], [], old⟩, ⟨[], []⟩, ⟨[], []⟩⟩ with
  | .error (e, fs) => (fs, some e)
  | .ok st => (writeVocabs st, none)

end Verif
