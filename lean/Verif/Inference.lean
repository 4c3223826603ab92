import Verif.StateInputs
import Verif.Datasets

/-!
# Batches of states

Model of how /repo/harmonic_inference/models/joint_model.py:1107-1377 runs the networks on a list of
states: the inputs are put into a `HarmonicDataset` with the `reduce` method of another dataset, a
`DataLoader` without shuffling makes batches, and results are given back by `zip`. The networks work on
each element of a batch alone, up to its length.
-/

namespace Verif

/-- What `get_dataset_kwargs` of the KTM and KSM returns (key_transition_models.py:69-72,
key_sequence_models.py:73-76). -/
structure ModelKwargs where
  reduction : Option Reduction
  useInversions : Bool

/-- Arguments of `KeyTransitionDataset` and `KeySequenceDataset` besides the pieces
(datasets.py:893-899, 984-990). -/
structure KeyDatasetArgs where
  transform : Option ModelKwargs := none
  reduction : Option Reduction := none
  useInversions : Bool := true

/-- `Dataset(pieces, **kwargs)`, as in training (train.py, datasets.py:1096). -/
def ModelKwargs.asKeywords (k : ModelKwargs) : KeyDatasetArgs :=
  { reduction := k.reduction, useInversions := k.useInversions }

/-- `Dataset([], kwargs)`, as in joint_model.py:1144 and 1217: the dictionary is the transform. -/
def ModelKwargs.asPosition (k : ModelKwargs) : KeyDatasetArgs := { transform := some k }

/-- datasets.py:870-873 `KeyHarmonicDataset.reduce`, the inputs after the call. -/
def keyReduce (a : KeyDatasetArgs) (inputs : List (List ℚ)) : Py (List (List ℚ)) := do
  let x ← reduceChordTypes inputs a.reduction true none
  if a.useInversions then .ok x else removeChordInversions x true none

/-- The batches of a `DataLoader` without shuffling. -/
def loaderBatches {α : Type} (size : Nat) (items : List α) : List (List α) :=
  (rangeStep 0 items.length size items.length).map fun s => (items.drop s).take size

/-- joint_model.py:1217-1224 and datasets.py:190-217: an item of the dataset of the KSM: hidden state,
padded and reduced inputs, length. The columns of the padding are those of the first row. -/
def ksmItem {H : Type} (kw : ModelKwargs) (inputs : List (List (List ℚ))) (hidden : List (Option H))
    (i : Nat) : Py (Option H × List (List ℚ) × Nat) := do
  let rows ← pyGet inputs i
  let first ← pyGet rows 0
  let (x, n) ← paddedItem (zeros first.length) inputs (inputs.map List.length) i
  let h ← pyGet hidden i
  let x ← keyReduce kw.asPosition x
  .ok (h, x, n)

/-- key_sequence_models.py:77-97 and 287-309: a batch is cut to its greatest length; each element is run
up to its length (at least 1). -/
def ksmBatch {H O : Type} (step : Option H → List ℚ → O × H)
    (batch : List (Option H × List (List ℚ) × Nat)) : List (Option (O × H)) :=
  let longest := maxLength (batch.map (·.2.2))
  batch.map fun (h, x, n) => runNet step h ((x.take longest).take (max n 1))

/-- joint_model.py:1204-1241: outputs and hidden states for a list of states, in the order of the
states. -/
def ksmBatched {H O : Type} (step : Option H → List ℚ → O × H) (kw : ModelKwargs) (size : Nat)
    (inputs : List (List (List ℚ))) (hidden : List (Option H)) : Py (List (Option (O × H))) := do
  let items ← (List.range inputs.length).mapM (ksmItem kw inputs hidden)
  .ok ((loaderBatches size items).flatMap (ksmBatch step))

/-- joint_model.py:1144-1147: an item of the dataset of the KTM, which holds one row. -/
def ktmItem {H : Type} (kw : ModelKwargs) (inputs : List (List ℚ)) (hidden : List (Option H)) (i : Nat) :
    Py (Option H × List (List ℚ)) := do
  let row ← pyGet inputs i
  let h ← pyGet hidden i
  let x ← keyReduce kw.asPosition [row]
  .ok (h, x)

/-- key_transition_models.py:162-169 `run_one_step`: lengths are 1. -/
def oneStepBatch {H O : Type} (step : Option H → List ℚ → O × H) (batch : List (Option H × List (List ℚ))) :
    List (Option (O × H)) :=
  batch.map fun (h, x) => runNet step h (x.take 1)

/-- joint_model.py:1129-1163: the KTM on a list of states. -/
def ktmBatched {H O : Type} (step : Option H → List ℚ → O × H) (kw : ModelKwargs) (size : Nat)
    (inputs : List (List ℚ)) (hidden : List (Option H)) : Py (List (Option (O × H))) := do
  let items ← (List.range inputs.length).mapM (ktmItem kw inputs hidden)
  .ok ((loaderBatches size items).flatMap (oneStepBatch step))

/-- joint_model.py:1351-1356: an item of the dataset of the CSM: `ChordTransitionDataset.reduce` is that of
`HarmonicDataset`, which does nothing (datasets.py:131-143). -/
def csmItem {H : Type} (inputs : List (List ℚ)) (hidden : List (Option H)) (i : Nat) :
    Py (Option H × List (List ℚ)) := do
  let row ← pyGet inputs i
  let h ← pyGet hidden i
  .ok (h, [row])

/-- joint_model.py:1336-1377: the CSM on a list of states. -/
def csmBatched {H O : Type} (step : Option H → List ℚ → O × H) (size : Nat) (inputs : List (List ℚ))
    (hidden : List (Option H)) : Py (List (Option (O × H))) := do
  let items ← (List.range inputs.length).mapM (csmItem inputs hidden)
  .ok ((loaderBatches size items).flatMap (oneStepBatch step))

end Verif
