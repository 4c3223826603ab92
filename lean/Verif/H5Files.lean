import Verif.LoadPieces
import Verif.GridSearch

/-!
# Files of data sets

Model of /repo/create_h5_data.py:86-168, of `get_dataset_splits` (/repo/harmonic_inference/data/datasets.py:1288-1345)
and of the parts of /repo/test.py:558-583 and /repo/train.py:210-256 that read the files.
-/

namespace Verif

/-- create_h5_data.py:15-21 `DATASET_CLASSES`. -/
inductive H5Class where
  | chordTransition
  | chordClassification
  | chordSequence
  | keyTransition
  | keySequence
  deriving DecidableEq

/-- create_h5_data.py:15-21: in the order of the code. -/
def datasetClasses : List H5Class :=
  [.chordTransition, .chordClassification, .chordSequence, .keyTransition, .keySequence]

/-- datasets.py: `__name__` of the classes. -/
def H5Class.name : H5Class → Str
  | .chordTransition => chars% "ChordTransitionDataset"
  | .chordClassification => chars% "ChordClassificationDataset"
  | .chordSequence => chars% "ChordSequenceDataset"
  | .keyTransition => chars% "KeyTransitionDataset"
  | .keySequence => chars% "KeySequenceDataset"

/-- `"train"`. -/
def trainName : Str := chars% "train"

/-- `"valid"`. -/
def validName : Str := chars% "valid"

/-- `"test"`. -/
def testName : Str := chars% "test"

/-- create_h5_data.py:23 `SPLITS`. -/
def splitNames : List Str := [trainName, validName, testName]

/-- create_h5_data.py:158, test.py:578 and train.py:223: the name of the file of pieces. -/
def pklName (split : Str) (seed : Int) : Str :=
  chars% "pieces_" ++ split ++ chars% "_seed_" ++ intStr seed ++ chars% ".pkl"

/-- create_h5_data.py:166, test.py:559 and train.py:212, 241-242: the name of the file of a data set. -/
def h5Name (c : H5Class) (split : Str) (seed : Int) : Str :=
  c.name ++ ['_'] ++ split ++ chars% "_seed_" ++ intStr seed ++ chars% ".h5"

/-- What a file contains: the dictionaries of pieces, or a data set `δ` and `file_ids`. -/
inductive H5Content (δ ι : Type) where
  | dicts (ds : List PieceDict)
  | data (d : δ) (ids : List ι)

/-- The output directory: the content of the files by name. -/
abbrev H5Dir (δ ι : Type) := Str → Option (H5Content δ ι)

/-- Opening a file with `"w"` or `"wb"` and writing it: the earlier content is lost. -/
def writeFile {δ ι : Type} (dir : H5Dir δ ι) (name : Str) (c : H5Content δ ι) : H5Dir δ ι :=
  fun n => if n = name then some c else dir n

/-- How the script ends if it does not end normally: `sys.exit`, or an exception. What a failing run has written before
is not modelled. -/
inductive H5Stop where
  | exit (code : Nat)
  | raised (e : PyErr)
  deriving DecidableEq

/-- create_h5_data.py:89-96: the proportions. They are rationals here. -/
def normalizeSplits (splits : List ℚ) : Except H5Stop (List ℚ) :=
  if splits.any (fun s => decide (s < 0)) then .error (.exit 1)
  else if splits.sum = 0 then .error (.exit 1)
  else .ok (splits.map (· / splits.sum))

/-- datasets.py:1331-1343: the data sets of each split, in the order of the classes; none for a split without pieces.
`mk` makes the data set of a class, padded as `to_h5` does (datasets.py:271-272). -/
def datasetColumns {π δ : Type} (classes : List H5Class) (mk : H5Class → List π → Py δ) :
    List (List π) → Py (List (Option (List δ)))
  | [] => .ok []
  | pieces :: rest =>
    if pieces.length = 0 then do
      let cols ← datasetColumns classes mk rest
      .ok (none :: cols)
    else do
      let col ← classes.mapM fun c => mk c pieces
      let cols ← datasetColumns classes mk rest
      .ok (some col :: cols)

/-- create_h5_data.py:156-160: the files of pieces. -/
def writePieces {μ δ ι : Type} (seed : Int) : List (Str × List (PieceObj μ)) → H5Dir δ ι → Py (H5Dir δ ι)
  | [], dir => .ok dir
  | (split, pieces) :: rest, dir =>
    if pieces.length > 0 then do
      let ds ← pieces.mapM PieceObj.toDict
      writePieces seed rest (writeFile dir (pklName split seed) (.dicts ds))
    else writePieces seed rest dir

/-- create_h5_data.py:165: `dataset_splits[i1][i2]`. The table has a column per split; there is always one for an
index of `SPLITS`. -/
def tableEntry {δ : Type} (cols : List (Option (List δ))) (i1 i2 : Nat) : Option δ :=
  match cols[i2]? with
  | some (some col) => col[i1]?
  | _ => none

/-- create_h5_data.py:162-168: the files of data sets, in order, with their names. There are ids for every
index of `SPLITS`. -/
def h5Writes {δ ι : Type} (seed : Int) (cols : List (Option (List δ))) (ids : List (List ι)) :
    List (Str × H5Content δ ι) :=
  datasetClasses.zipIdx.flatMap fun c =>
    splitNames.zipIdx.flatMap fun s =>
      match tableEntry cols c.2 s.2, ids[s.2]? with
      | some d, some is => [(h5Name c.1 s.1 seed, .data d is)]
      | _, _ => []

/-- create_h5_data.py:167: the files are written one after the other. -/
def writeAll {δ ι : Type} (dir : H5Dir δ ι) (ws : List (Str × H5Content δ ι)) : H5Dir δ ι :=
  ws.foldl (fun d w => writeFile d w.1 w.2) dir

/-- An exception ends the script. -/
def orRaise {α : Type} : Py α → Except H5Stop α
  | .ok a => .ok a
  | .error e => .error (.raised e)

/-- create_h5_data.py:86-168: the script, from the directory as it is to the directory as it is afterwards. `ids` are the
ids of the pieces of the input (after `--corpus` and `--debug`), `parse` gives the piece of an id, and `shuffled` is the
result of shuffling with the seed. -/
def createH5 {ι μ δ : Type} (ids : List ι) (parse : ι → Py (PieceObj μ)) (mk : H5Class → List (PieceObj μ) → Py δ)
    (shuffled : List Nat) (splits : List ℚ) (seed : Int) (dir : H5Dir δ ι) : Except H5Stop (H5Dir δ ι) := do
  let props ← normalizeSplits splits
  let out ← orRaise (splitPieces ids (fun i => orNone (parse i)) shuffled props)
  let cols ← orRaise (datasetColumns datasetClasses mk out.2)
  let dir' ← orRaise (writePieces seed (splitNames.zip out.2) dir)
  .ok (writeAll dir' (h5Writes seed cols out.1))

/-- test.py:559-569: `file_ids`. The files written by `createH5` have `file_ids`. -/
def idsOfFile {δ ι : Type} (dir : H5Dir δ ι) (name : Str) : Option (List ι) :=
  match dir name with
  | some (.data _ ids) => some ids
  | _ => none

/-- data_utils.py:129-133: the argument `piece_dicts_path`. -/
def dictsOfFile {δ ι : Type} (dir : H5Dir δ ι) (name : Str) : DictsArg PieceDict :=
  match dir name with
  | some (.dicts ds) => .found ds
  | _ => .missing

/-- test.py:556-583, without `--xml` and `--no-h5`: the pieces that are evaluated. `all` is the index of the table of
files, `test` the option `--test`. -/
def testPieces {ι μ δ : Type} [DecidableEq ι] (all : List ι) (parse : ι → Py (PieceObj μ)) (measures : ι → Py μ)
    (dir : H5Dir δ ι) (test : Bool) (seed : Int) (specific : Option ι) : Py (List (ι × PieceObj μ)) :=
  let split := if test then testName else validName
  loadFromTables all parse measures (idsOfFile dir (h5Name .chordTransition split seed))
    (dictsOfFile dir (pklName split seed)) specific

/-- train.py:210-225, without `--xml`: the pieces the initial chord prior is made of. Opening a missing file is an
error of the operating system. -/
def icmPieces {ι μ δ : Type} [DecidableEq ι] (all : List ι) (parse : ι → Py (PieceObj μ)) (measures : ι → Py μ)
    (dir : H5Dir δ ι) (seed : Int) : Py (List (ι × PieceObj μ)) :=
  match idsOfFile dir (h5Name .chordTransition trainName seed) with
  | none => .error .valueError
  | some ids => loadFromTables all parse measures (some ids) (dictsOfFile dir (pklName trainName seed)) none

end Verif
