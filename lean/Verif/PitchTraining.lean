import Verif.ChordTraining
import Verif.ClassData

/-!
# What the pitch-based chord sequence model is trained on

Model of `ChordSequenceDataset` with `pitch_based` in /repo/harmonic_inference/data/datasets.py and of
`PitchBasedChordSequenceModel.get_data_from_batch` in /repo/harmonic_inference/models/chord_sequence_models.py.
-/

namespace Verif

/-- chord_sequence_models.py:73-90 and 458-462 `get_dataset_kwargs` with 409-418: outputs are neither reduced nor without
inversions. -/
def pitchSettings (inputRed : Option Reduction) (inputInv : Bool) : CsmSettings :=
  ⟨inputRed, inputInv, noReduction, true⟩

/-- An item of a pitch-based `ChordSequenceDataset`. -/
structure PitchItem where
  inputs : List (List ℚ)
  inputLength : Nat
  rows : List (List Int)
  deriving DecidableEq

/-- datasets.py:197-222 `__getitem__` (in memory) and 696-746 `reduce` with `pitch_based`. -/
def ChordSeqData.pitchItem (d : ChordSeqData) (s : CsmSettings) (i : Int) : Py PitchItem := do
  let it ← d.item s i
  let pt ← pyGet d.pitchType.toList 0
  let rows ← pitchTargets it.targets (changeFlags it.inputs) it.targetLength pt s.outputRed s.outputInv
  .ok ⟨it.inputs, it.inputLength, rows⟩

/-- chord_sequence_models.py:473: `torch.roll(targets, -1, dims=1)`. -/
def rollRows : List (List Int) → List (List Int)
  | [] => []
  | t :: ts => ts ++ [t]

/-- chord_sequence_models.py:464-475 `PitchBasedChordSequenceModel.get_data_from_batch`, for the collated items; `max` of
no lengths and items of different shapes raise. -/
def pitchCollate (items : List PitchItem) : Py (List PitchItem) :=
  let longest := maxLength (items.map (·.inputLength))
  if items.isEmpty || !sameWidth (items.flatMap (·.inputs)) then .error .valueError
  else .ok (items.map fun it => ⟨it.inputs.take longest, it.inputLength, rollRows (it.rows.take longest)⟩)

/-- What `training_step`, `validation_step` and `evaluate` of the pitch-based model get for a batch of items,
chord_sequence_models.py:477-551. -/
def ChordSeqData.pitchBatch (d : ChordSeqData) (s : CsmSettings) (is : List Nat) : Py (List PitchItem) := do
  let items ← is.mapM fun i : Nat => d.pitchItem s i
  pitchCollate items

end Verif
