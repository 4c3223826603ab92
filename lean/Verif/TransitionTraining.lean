import Verif.ClassTraining
import Verif.ChordTraining
import Verif.ModelEval

/-!
# What the chord transition model is trained on

Model of `ChordTransitionDataset` in /repo/harmonic_inference/data/datasets.py from the pieces to the items, with the way
through an h5 file, and of `ChordTransitionModel.get_data_from_batch` in
/repo/harmonic_inference/models/chord_transition_models.py. Rounding to float16 is outside of the model.
-/

namespace Verif

/-- note.py:135-302 `to_vec` with the distances to the notes before and after it only (datasets.py:335). -/
def plainNoteVector (n : NoteObj) (fromPrev toNext : Option ℚ) : Py (List ℚ) :=
  NoteVec.toVec ⟨n.pitchClass, n.octave, n.onsetLevel, n.offsetLevel, n.pitchType, (0, 0, 0),
    (fromPrev.getD 0, toNext.getD 0), none, none⟩

/-- datasets.py:331-344: the inputs of a piece, for its duration cache. -/
def ctmInputs (notes : List NoteObj) (cache : List ℚ) : Py (List (List ℚ)) := do
  let rows ← (notes.zip ((none :: cache.map some).zip (cache.map some))).mapM fun x =>
    plainNoteVector x.1 x.2.1 x.2.2
  let (_, rows) ← stackRows rows
  .ok rows

/-- datasets.py:331-351: the inputs and the targets of a labelled piece. Which of several exceptions is raised first is
not modelled. -/
def ctmPiece (x : ClassPiece) : Py (List (List ℚ) × List Int) := do
  let last ← lastOffset (some (x.chords.map fun c => toLex c.1.offset)) (x.notes.map fun n => toLex n.offset)
  let cache ← durationCache x.measures (x.notes.map NoteObj.onset) (ofLex last)
  let inputs ← ctmInputs x.notes cache
  let changes := chordChanges (x.notes.map fun n => toLex n.onset) 0 (x.chords.map fun c => toLex c.1.onset)
  let targets ← ctmTargets inputs.length (changes.map fun (j : Nat) => (j : Int)) cache
  .ok (inputs, targets)

/-- The contents of a `ChordTransitionDataset` in memory. -/
structure CtmData where
  inputs : List (List (List ℚ))
  targets : List (List Int)
  inputLengths : List Nat
  targetLengths : List Nat

/-- datasets.py:315-357 `ChordTransitionDataset.__init__` with real targets. -/
def ctmData (pieces : List ClassPiece) : Py CtmData := do
  let l ← pieces.mapM ctmPiece
  .ok { inputs := l.map (·.1), targets := l.map (·.2), inputLengths := l.map (·.1.length),
        targetLengths := l.map (·.2.length) }

/-- datasets.py:224-297 `pad` and `to_h5` and 1070-1145 `h5_to_dataset`: inputs and targets are padded, and their
lengths are saved. -/
def CtmData.throughH5 (d : CtmData) (size : Nat) : Py CtmData := do
  let (targets, targetLengths) ← padArray 0 d.targets
  let (inputs, inputLengths) ← padArray (zeros ((d.inputs.flatten.head?.map List.length).getD 0)) d.inputs
  .ok ⟨loadLists inputs inputLengths size, loadLists targets targetLengths size, inputLengths, targetLengths⟩

/-- An item of the dataset. -/
structure CtmItem where
  inputs : List (List ℚ)
  inputLength : Nat
  targets : List Int
  targetLength : Nat
  deriving DecidableEq

/-- datasets.py:197-222 `__getitem__` (in memory); nothing is reduced. -/
def CtmData.item (d : CtmData) (i : Int) : Py CtmItem := do
  let x ← pyGet d.inputs i
  let row ← pyGet x 0
  let inputs ← paddedItem (zeros row.length) d.inputs d.inputLengths i
  let targets ← paddedItem 0 d.targets d.targetLengths i
  .ok ⟨inputs.1, inputs.2, targets.1, targets.2⟩

/-- A row of the batch. -/
structure CtmRow where
  inputs : List (List ℚ)
  length : Nat
  targets : List Int
  mask : List Bool
  deriving DecidableEq

/-- chord_transition_models.py:69: the mask of one row of the batch. -/
def ctmMask (inputs : List (List ℚ)) (targets : List Int) : List Bool :=
  inputs.zipWith (fun row t => decide (0 < row.sum) && t != -100) targets

/-- chord_transition_models.py:60-71 `get_data_from_batch`, for the collated items; `max` of no lengths and items of
different shapes raise. The shapes of inputs and targets agree for items of one dataset (both are padded to the
longest piece). -/
def ctmBatch (items : List CtmItem) : Py (List CtmRow) :=
  let longest := maxLength (items.map (·.inputLength))
  let longestTarget := maxLength (items.map (·.targetLength))
  if items.isEmpty || !sameWidth (items.flatMap (·.inputs)) then .error .valueError
  else .ok (items.map fun it =>
    ⟨it.inputs.take longest, it.inputLength, it.targets.take longestTarget,
      ctmMask (it.inputs.take longest) (it.targets.take longestTarget)⟩)

/-- What `training_step`, `validation_step` and `evaluate` get for a batch of items, chord_transition_models.py:78-140. -/
def CtmData.batch (d : CtmData) (is : List Nat) : Py (List CtmRow) := do
  let items ← is.mapM fun i : Nat => d.item i
  ctmBatch items

end Verif
