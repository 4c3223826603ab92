import Verif.Corpus
import Verif.MergeTies

/-!
# Loading of the corpus tables

Model of /repo/harmonic_inference/data/corpus_reading.py: `load_clean_corpus_dfs` (60-214) with
`remove_unmatched` of /repo/harmonic_inference/utils/corpus_utils.py (17-49), and
`aggregate_annotation_dfs` (217-319).
-/

namespace Verif

/-- A row of `files.tsv`: its index and its `file_name` (corpus_reading.py:93, 302). -/
structure CorpusFile where
  id : Nat
  name : String
  deriving DecidableEq, Repr

/-- A row of `notes.tsv` (corpus_reading.py:95) with its index and the columns which are used. `onset`: the
column `mn_onset`; `oldOnset`: the column `onset`, which older corpora have (a table without this column has
no value in any row). `grace`: the column `gracenote` is not null. The table has no columns `offset_beat` and
`offset_mc` yet, so they are added (190-191). -/
structure RawNote where
  file : Nat
  note : Nat
  mc : Int
  onset : Option ℚ
  oldOnset : Option ℚ
  dur : ℚ
  midi : Int
  voice : Int
  staff : Int
  grace : Bool
  tied : Option Int
  deriving DecidableEq, Repr

/-- A row of `chords.tsv` (corpus_reading.py:97) with its index and the columns which are used. `timesig`: the
value of the time signature. -/
structure RawChord where
  file : Nat
  chord : Nat
  mc : Int
  onset : Option ℚ
  oldOnset : Option ℚ
  timesig : ℚ
  numeral : Option String
  deriving DecidableEq, Repr

/-- The four tables which are returned (corpus_reading.py:214). A chord comes with the columns which
`add_chord_metrical_data` adds. -/
structure CleanFrames where
  files : List CorpusFile
  measures : List (FileMeasure ℚ)
  chords : Option (List (RawChord × ChordEnd ℚ))
  notes : List TieNote
  deriving DecidableEq

/-- `df.loc[files_df.index]` of a table indexed by file and row (corpus_reading.py:104-107, 111-112): the
rows of each file, in the order of the files; `KeyError` if there is a file without a row. -/
def locFiles {α : Type} (fileOf : α → Nat) (rows : List α) (files : List CorpusFile) : Py (List α) :=
  if files.all (fun f => rows.any (fun r => fileOf r == f.id)) then
    .ok (files.flatMap fun f => rows.filter (fun r => fileOf r == f.id))
  else .error .keyError

/-- corpus_reading.py:102-107, for one table: nothing is selected if there is no `count`. -/
def cutRows {α : Type} (fileOf : α → Nat) (count : Option Nat) (rows : List α) (files : List CorpusFile) :
    Py (List α) :=
  match count with
  | none => .ok rows
  | some _ => locFiles fileOf rows files

/-- corpus_reading.py:102-103. -/
def cutFiles (count : Option Nat) (files : List CorpusFile) : List CorpusFile :=
  match count with
  | none => files
  | some n => files.take n

/-- corpus_reading.py:110: a piece with wrong links is left out. -/
def keepFiles (files : List CorpusFile) : List CorpusFile :=
  files.filter (fun f => decide (f.name ≠ "c11n08_Rondeau.tsv"))

/-- The rows of the measures table which a row is merged with: `on=["file_id", "mc"]`
(corpus_utils.py:41-46, corpus_reading.py:144-149, 167-172). -/
def matchingMeasures (M : List (FileMeasure ℚ)) (file : Nat) (mc : Int) : List (FileMeasure ℚ) :=
  M.filter (fun m => decide (m.file = file ∧ m.mc = mc))

/-- corpus_utils.py:17-49 `remove_unmatched`: a row is there once for each measure it is merged with. -/
def removeUnmatched {α : Type} (fileOf : α → Nat) (mcOf : α → Int) (rows : List α)
    (M : List (FileMeasure ℚ)) : List α :=
  rows.flatMap fun r => (matchingMeasures M (fileOf r) (mcOf r)).map fun _ => r

/-- corpus_reading.py:151-153, 174-177: a comparison with a missing value is false. -/
def validOnset (m : FileMeasure ℚ) (onset : Option ℚ) : Bool :=
  match onset with
  | none => false
  | some x => decide (m.offset ≤ x) && decide (x < m.actDur + m.offset)

/-- corpus_reading.py:144-153, 167-177: `valid_onsets`, for a left merge (a row without a measure has missing
values). -/
def onsetMask {α : Type} (fileOf : α → Nat) (mcOf : α → Int) (onsetOf : α → Option ℚ) (rows : List α)
    (M : List (FileMeasure ℚ)) : List Bool :=
  rows.flatMap fun r =>
    let ms := matchingMeasures M (fileOf r) (mcOf r)
    if ms.isEmpty then [false] else ms.map fun m => validOnset m (onsetOf r)

/-- corpus_reading.py:154-163, 178-187: `df.loc[valid_onsets.values]` if there is an invalid row;
`IndexError` if the mask has another length than the table. -/
def applyMask {α : Type} (rows : List α) (mask : List Bool) : Py (List α) :=
  if mask.all id then .ok rows
  else if mask.length = rows.length then .ok (((rows.zip mask).filter (·.2)).map (·.1))
  else .error .indexError

/-- corpus_reading.py:127-129: a missing `mn_onset` is taken from the column `onset`. -/
def fillNote (n : RawNote) : RawNote := { n with onset := n.onset.or n.oldOnset, oldOnset := none }

/-- corpus_reading.py:123-125. -/
def fillChord (c : RawChord) : RawChord := { c with onset := c.onset.or c.oldOnset, oldOnset := none }

/-- corpus_reading.py:139-141: the chords which are dropped. -/
def noNumeral (c : RawChord) : Bool := c.numeral == some "@none" || c.numeral == none

/-- corpus_reading.py:190-191: a note with the columns which `add_note_offsets` adds. `TieNote` has no missing
onsets and offsets: there are no missing onsets at this point, and an offset is missing only for a link to a
measure which is not in the table (not modelled: `KeyError`). -/
def addOffset (M : List (FileMeasure ℚ)) (fuel : Nat) (n : RawNote) : Py TieNote :=
  match n.onset with
  | none => .error .keyError
  | some x =>
    match noteOffset (measuresOf M n.file) fuel n.mc x n.dur with
    | .ok (offMc, some offBeat) =>
      .ok { file := n.file, note := n.note, mc := n.mc, onset := x, dur := n.dur, midi := n.midi,
            voice := n.voice, staff := n.staff, grace := n.grace, tied := n.tied, offMc := offMc,
            offBeat := offBeat }
    | .ok (_, none) => .error .keyError
    | .error e => .error e

/-- A chord as `add_chord_metrical_data` sees it. There are no missing onsets at this point. -/
def chordRow (c : RawChord) : Py (ChordRow ℚ) :=
  match c.onset with
  | none => .error .keyError
  | some x => .ok { file := c.file, mc := c.mc, onset := x, timesig := c.timesig }

/-- corpus_reading.py:202, 212: the chords which are kept. A missing duration is not `<= 0`. -/
def lasts (e : ChordEnd ℚ) : Bool :=
  match e.duration with
  | none => true
  | some d => !decide (d ≤ 0)

/-- corpus_reading.py:135-141, 165-187, 196-212: what is done with the chords, for measures with repeats
removed. -/
def cleanChords (fuel : Nat) (M : List (FileMeasure ℚ)) (chords : List RawChord) :
    Py (List (RawChord × ChordEnd ℚ)) := do
  let chords := (removeUnmatched (·.file) (·.mc) chords M).filter (fun c => !noNumeral c)
  let chords ← applyMask chords (onsetMask (·.file) (·.mc) (·.onset) chords M)
  let rows ← mapPy chordRow chords
  let ends ← addChordMetricalData M rows fuel
  return (chords.zip ends).filter (fun p => lasts p.2)

/-- corpus_reading.py:135-136, 143-163, 189-194: what is done with the notes. `iloc[0]` of a table of measures
without rows: `IndexError` (corpus_utils.py:285). -/
def cleanNotes (ord : List TiePair → List TiePair) (fuel : Nat) (M : List (FileMeasure ℚ))
    (notes : List RawNote) : Py (List TieNote) := do
  let notes := removeUnmatched (·.file) (·.mc) notes M
  let notes ← applyMask notes (onsetMask (·.file) (·.mc) (·.onset) notes M)
  if M.isEmpty then .error .indexError
  else do
    let notes ← mapPy (addOffset M fuel) notes
    mergeTies ord fuel notes

/-- corpus_reading.py:102-114: the chords of the files. With a `count`, each file must have one. -/
def cutChords (count : Option Nat) (files kept : List CorpusFile) (chords : Option (List RawChord)) :
    Py (Option (List RawChord)) :=
  match chords with
  | none => .ok none
  | some cs =>
    match cutRows (·.file) count cs files with
    | .error e => .error e
    | .ok cs => .ok (some (cs.filter (fun c => decide (c.file ∈ kept.map (·.id)))))

/-- corpus_reading.py:137, 166, 197, 201, 214: the chords, if there are any, and the four tables. -/
def withChords (fuel : Nat) (files : List CorpusFile) (M : List (FileMeasure ℚ)) (notes : List TieNote)
    (chords : Option (List RawChord)) : Py CleanFrames :=
  match chords with
  | none => .ok { files := files, measures := M, chords := none, notes := notes }
  | some cs =>
    match cleanChords fuel M (cs.map fillChord) with
    | .error e => .error e
    | .ok cs => .ok { files := files, measures := M, chords := some cs, notes := notes }

/-- corpus_reading.py:60-214 `load_clean_corpus_dfs`, for the tables which are read. Measures have an offset
(118-120 is not modelled), and their `next` is a tuple, as `read_dump` makes it (132). The steps for notes and
for chords are independent of each other; those for the notes are done first here, where they are mixed in
the code. -/
def loadCleanCorpus (ord : List TiePair → List TiePair) (fuel : Nat) (files : List CorpusFile)
    (measures : List (RawMeasure ℚ)) (notes : List RawNote) (chords : Option (List RawChord))
    (count : Option Nat) : Py CleanFrames := do
  let files1 := cutFiles count files
  let measures ← cutRows (·.file) count measures files1
  let notes ← cutRows (·.file) count notes files1
  let files2 := keepFiles files1
  let measures ← locFiles (·.file) measures files2
  let notes ← locFiles (·.file) notes files2
  let chords ← cutChords count files1 files2 chords
  if measures.isEmpty then .error .indexError
  else do
    let M := removeRepeats measures true
    let notes ← cleanNotes ord fuel M (notes.map fillNote)
    withChords fuel files2 M notes chords

/-- A file which `glob` finds (corpus_reading.py:255-261), with the rows of the tables of the same name in the
directories `harmonies`, `notes` and `measures` beside it: `none` if the table cannot be read (263-282). -/
structure FoundFile (ρ : Type) where
  corpus : String
  name : String
  chords : Option (List ρ)
  notes : Option (List ρ)
  measures : Option (List ρ)
  deriving DecidableEq

/-- The lists which are built in the loop (corpus_reading.py:243-251). -/
structure Aggregation (ρ : Type) where
  files : List (String × String)
  chordDfs : List (List ρ)
  noteDfs : List (List ρ)
  measureDfs : List (List ρ)
  chordIndexes : List Nat
  noteIndexes : List Nat
  measureIndexes : List Nat
  deriving DecidableEq

/-- `indexes.append(len(files_dict["file_name"]))` if the table has been read (corpus_reading.py:265, 272,
279). -/
def addIndex {ρ : Type} (indexes : List Nat) (n : Nat) : Option (List ρ) → List Nat
  | none => indexes
  | some _ => indexes ++ [n]

/-- `if df is not None: df_list.append(df)` (corpus_reading.py:287-292). -/
def addDf {ρ : Type} (dfs : List (List ρ)) : Option (List ρ) → List (List ρ)
  | none => dfs
  | some df => dfs ++ [df]

/-- One round of the loop (corpus_reading.py:255-292). -/
def aggregateStep {ρ : Type} (s : Aggregation ρ) (f : FoundFile ρ) : Aggregation ρ :=
  { files := s.files ++ [(f.corpus, f.name)]
    chordDfs := addDf s.chordDfs f.chords
    noteDfs := addDf s.noteDfs f.notes
    measureDfs := addDf s.measureDfs f.measures
    chordIndexes := addIndex s.chordIndexes s.files.length f.chords
    noteIndexes := addIndex s.noteIndexes s.files.length f.notes
    measureIndexes := addIndex s.measureIndexes s.files.length f.measures }

/-- `pd.concat(dfs, keys=indexes, names=["file_id", ...])` (corpus_reading.py:306-318): the rows of all tables,
with the key of the table and the number of the row in its table. The tables are written only if there is
one. -/
def concatKeys {ρ : Type} (dfs : List (List ρ)) (indexes : List Nat) : Option (List (Nat × Nat × ρ)) :=
  if dfs.isEmpty then none
  else some ((indexes.zip dfs).flatMap fun p => p.2.zipIdx.map fun r => (p.1, r.2, r.1))

/-- The tables which are written (corpus_reading.py:302-319). -/
structure Written (ρ : Type) where
  files : List (Nat × String × String)
  chords : Option (List (Nat × Nat × ρ))
  notes : Option (List (Nat × Nat × ρ))
  measures : Option (List (Nat × Nat × ρ))
  deriving DecidableEq

/-- corpus_reading.py:217-319 `aggregate_annotation_dfs`: nothing is written if there is no file. -/
def aggregateAnnotations {ρ : Type} (found : List (FoundFile ρ)) : Option (Written ρ) :=
  let s := found.foldl aggregateStep
    { files := [], chordDfs := [], noteDfs := [], measureDfs := [], chordIndexes := [], noteIndexes := [],
      measureIndexes := [] }
  if s.files.isEmpty then none
  else some
    { files := s.files.zipIdx.map fun p => (p.2, p.1)
      chords := concatKeys s.chordDfs s.chordIndexes
      notes := concatKeys s.noteDfs s.noteIndexes
      measures := concatKeys s.measureDfs s.measureIndexes }

end Verif
