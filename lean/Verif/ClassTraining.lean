import Verif.ChordInputs
import Verif.ClassData
import Verif.Datasets

/-!
# What the chord classifier is trained on

Model of `ChordClassificationDataset` in /repo/harmonic_inference/data/datasets.py from the pieces to the items, with
the way through an h5 file. Rounding to float16 is outside of the model (targets are below 2048, so that they are
not rounded).
-/

namespace Verif

/-- A labelled piece, as far as it is read: its notes, its table of measures, and its chords with their places. -/
structure ClassPiece where
  notes : List NoteObj
  measures : List (Measure ℚ)
  chords : List (ChordSpan × Chord ℚ)

/-- The contents of a `ChordClassificationDataset` in memory: inputs, `input_lengths`, targets and
`target_pitch_type` (an empty list is `none`). -/
structure ClassDataset where
  inputs : List (List (List ℚ))
  lengths : List Nat
  targets : List Int
  pitchType : Option PitchType

/-- datasets.py:446-447: the pitch type of the first chord of the first piece. -/
def firstPitchType : List ClassPiece → Option PitchType
  | [] => none
  | x :: _ => x.chords.head?.map fun c => c.2.pitchType

/-- datasets.py:416-447 `ChordClassificationDataset.__init__` for the chords of the pieces, with real targets. The
window is 2 (piece.py:464). Which of several exceptions is raised first is not modelled. -/
def classDataset (pieces : List ClassPiece) : Py ClassDataset := do
  let inputs ← pieces.mapM fun x =>
    chordNoteInputs x.notes (some (x.chords.map Prod.fst)) x.measures 2 none none
  let targets ← (pieces.flatMap ClassPiece.chords).mapM fun c => c.2.oneHotIndex false true false noReduction
  .ok { inputs := inputs.flatten, lengths := inputs.flatten.map List.length, targets := targets,
        pitchType := firstPitchType pieces }

/-- datasets.py:224-297 `pad` and `to_h5` and 1070-1145 `h5_to_dataset`: targets are not padded (416), inputs are
padded, and their lengths are saved. -/
def ClassDataset.throughH5 (d : ClassDataset) (size : Nat) : Py ClassDataset := do
  let (padded, lengths) ← padArray (zeros ((d.inputs.flatten.head?.map List.length).getD 0)) d.inputs
  .ok { d with inputs := loadLists padded lengths size, lengths := lengths }

/-- datasets.py:450-453: the settings. `noReduction` stands for `None`. -/
structure ClassSettings where
  red : Reduction
  useInv : Bool
  lo : Int
  hi : Int

/-- datasets.py:455-456 `__len__`. -/
def ClassDataset.size (d : ClassDataset) (s : ClassSettings) : Int := transposedLength d.inputs.length s.lo s.hi

/-- datasets.py:458-462 and 169-222 `__getitem__`, with `reduce` (507-577). -/
def ClassDataset.item (d : ClassDataset) (s : ClassSettings) (k : Int) : Py ClassItem := do
  let (i, t) ← transposedItem s.lo s.hi k
  let x ← pyGet d.inputs i
  let row ← pyGet x 0
  let (inputs, length) ← paddedItem (zeros row.length) d.inputs d.lengths i
  let target ← pyGet d.targets i
  let pt ← pyGet d.pitchType.toList 0
  reduceClass t pt s.red s.useInv ⟨target, length, inputs, none⟩

end Verif
