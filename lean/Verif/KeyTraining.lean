import Verif.Datasets

/-!
# What the key models are trained on

Model of the way of the data of `KeyTransitionDataset` and `KeySequenceDataset` in
/repo/harmonic_inference/data/datasets.py through an h5 file to `get_data_from_batch` of the key transition and key
sequence models, for models that neither reduce chord types nor leave out inversions (so that `reduce` does nothing).
-/

namespace Verif

/-- datasets.py:252-297 `to_h5` and 1070-1145 `h5_to_dataset` (in memory) for a key dataset, whose lengths are those of
its items; `size` is the chunk size. Numbers of type float16 are not modelled. -/
def KeyData.throughH5 {α : Type} (zero : α) (d : KeyData α) (size : Nat) : Py (KeyData α) := do
  let inputs ← h5RoundTrip zero d.inputs (some d.inputLengths) size
  .ok { d with inputs := inputs }

/-- The items of a batch, read one after the other by a `DataLoader` (with workers, by one of them from its copy of
the dataset), and the dataset after that. -/
def KeyData.readItems {α : Type} (zero : α) (d : KeyData α) : List Nat → Py (List (KeyItem α) × KeyData α)
  | [] => .ok ([], d)
  | i :: is => do
    let (it, d) ← d.getItem zero i
    let (its, d) ← d.readItems zero is
    .ok (it :: its, d)

/-- key_transition_models.py:74-84 and key_sequence_models.py:78-86 `get_data_from_batch` of one item: inputs, and
targets if there is one for each input, up to the longest input. -/
def cutItem {α : Type} (transitions : Bool) (longest : Nat) (it : KeyItem α) : KeyItem α :=
  ⟨it.inputs.take longest, it.inputLength, if transitions then it.targets.take longest else it.targets⟩

/-- The collation of a batch, which raises for no items and for arrays of different lengths, and `get_data_from_batch`. -/
def keyBatch {α : Type} (transitions : Bool) (items : List (KeyItem α)) : Py (List (KeyItem α)) :=
  if items.isEmpty || !(items.all fun it => some it.inputs.length == items.head?.map (·.inputs.length))
  then .error .valueError
  else .ok (items.map (cutItem transitions (maxLength (items.map (·.inputLength)))))

/-- What `training_step`, `validation_step` and `evaluate` of the key models get for a batch of items,
key_transition_models.py:86-143, key_sequence_models.py:98-142; and the dataset after that. -/
def KeyData.batch {α : Type} (zero : α) (d : KeyData α) (is : List Nat) : Py (List (KeyItem α) × KeyData α) := do
  let (items, d) ← d.readItems zero is
  let out ← keyBatch d.transitions items
  .ok (out, d)

end Verif
