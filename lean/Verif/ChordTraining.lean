import Verif.Datasets
import Verif.ModelEval

/-!
# What the chord sequence model is trained on

Model of `ChordSequenceDataset` in /repo/harmonic_inference/data/datasets.py (without `pitch_based`, see `pitchTargets`) and
of `ChordSequenceModel.get_data_from_batch` in /repo/harmonic_inference/models/chord_sequence_models.py.
-/

namespace Verif

/-- `np.vstack` and the collation of a batch: all rows have the same number of entries. -/
def sameWidth (rows : List (List ℚ)) : Bool := rows.all fun r => some r.length == rows.head?.map List.length

/-- datasets.py:650-685, what a `ChordSequenceDataset` holds of one piece: its inputs and its targets. Which of several
exceptions is raised first is not modelled. -/
def chordPiece (x : KeyedPiece) : Py (List (List ℚ) × List Int) := do
  let first ← pyGet x.keys 0
  let rows ← (keySegments (none :: x.keys.dropLast.map some) x.keys x.keyChanges
    (x.keyChanges.drop 1 ++ [x.chords.length])).mapM fun s => s.rows x.chords first.tonicType false
  let targets ← x.chords.mapM fun c => c.oneHotIndex true true false noReduction
  if rows.isEmpty || !sameWidth rows.flatten then .error .valueError else .ok (rows.flatten, targets)

/-- The inputs, targets and `target_pitch_type` (an empty list is `none`) of a `ChordSequenceDataset`. -/
structure ChordSeqData where
  inputs : List (List (List ℚ))
  targets : List (List Int)
  pitchType : Option PitchType

/-- datasets.py:660-661: the pitch type of the first chord; a piece without chords leaves it as it is. -/
def nextPitchType (old : Option PitchType) (x : KeyedPiece) : Option PitchType :=
  match x.chords with
  | [] => old
  | c :: _ => some c.pitchType

/-- datasets.py:645-688 `ChordSequenceDataset.__init__`; the lengths of inputs and targets are computed where they are
used. -/
def chordSeqData (pieces : List KeyedPiece) : Py ChordSeqData := do
  let l ← pieces.mapM chordPiece
  .ok { inputs := l.map (·.1), targets := l.map (·.2), pitchType := pieces.foldl nextPitchType none }

/-- datasets.py:690-694: the settings of a `ChordSequenceDataset`. `NO_REDUCTION` stands for `output_reduction=None`. -/
structure CsmSettings where
  inputRed : Option Reduction
  inputInv : Bool
  outputRed : Reduction
  outputInv : Bool

/-- An item of a `ChordSequenceDataset`. -/
structure CsmItem where
  inputs : List (List ℚ)
  inputLength : Nat
  targets : List Int
  targetLength : Nat
  deriving DecidableEq

/-- datasets.py:698-699. -/
def CsmSettings.rootPosition (s : CsmSettings) (inputs : List (List ℚ)) : Py (List (List ℚ)) :=
  if s.inputInv then .ok inputs else removeChordInversions inputs false none

/-- datasets.py:197-222 `__getitem__` (in memory) and 696-710 `reduce`. -/
def ChordSeqData.item (d : ChordSeqData) (s : CsmSettings) (i : Int) : Py CsmItem := do
  let x ← pyGet d.inputs i
  let row ← pyGet x 0
  let inputs ← paddedItem (zeros row.length) d.inputs (d.inputs.map List.length) i
  let targets ← paddedItem 0 d.targets (d.targets.map List.length) i
  let reduced ← reduceChordTypes inputs.1 s.inputRed false none
  let rooted ← s.rootPosition reduced
  let pt ← pyGet d.pitchType.toList 0
  let ts ← reduceChordOneHots targets.1 false pt true noReduction true s.outputRed s.outputInv
  .ok ⟨rooted, inputs.2, ts, targets.2⟩

/-- A row of the batch: inputs, input length and targets. -/
structure CsmRow where
  inputs : List (List ℚ)
  length : Nat
  targets : List Int
  deriving DecidableEq

/-- chord_sequence_models.py:102: `inputs[:, :, -1] == 1`. -/
def changeFlags (inputs : List (List ℚ)) : List Bool := inputs.map fun row => row.getLast? == some 1

/-- chord_sequence_models.py:92-108 `get_data_from_batch`, for the collated items; `max` of no lengths and items of
different shapes raise. -/
def csmBatch (items : List CsmItem) : Py (List CsmRow) :=
  let longest := maxLength (items.map (·.inputLength))
  if items.isEmpty || !sameWidth (items.flatMap (·.inputs)) then .error .valueError
  else .ok (items.map fun it =>
    ⟨it.inputs.take longest, it.inputLength,
      csmTargets longest it.targetLength (changeFlags it.inputs) it.targets⟩)

/-- What `training_step`, `validation_step` and `evaluate` of the model get for a batch of items,
chord_sequence_models.py:110-164. -/
def ChordSeqData.batch (d : ChordSeqData) (s : CsmSettings) (is : List Nat) : Py (List CsmRow) := do
  let items ← is.mapM fun i : Nat => d.item s i
  csmBatch items

end Verif
