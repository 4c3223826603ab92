import Verif.Vectors

/-!
# Data points of the chord classifier and of the pitch-based chord sequence model

Model of `ChordClassificationDataset.reduce` and of the pitch-based part of `ChordSequenceDataset.reduce`
(/repo/harmonic_inference/data/datasets.py) and of the pitch-based part of `State.add_csm_prior`
(/repo/harmonic_inference/utils/beam_search_utils.py).
-/

namespace Verif

/-! ## Chord classification -/

/-- The intermediate targets. -/
structure Intermediate where
  root : Int
  bass : Int
  pitches : List Nat
  deriving DecidableEq

/-- datasets.py:464-505 `generate_intermediate_targets`. -/
def intermediateTargets (target : Int) (pt : PitchType) (red : Reduction) (useInv : Bool) : Py Intermediate := do
  let (root, ct, inv) ← chordFromOneHotIndex target pt useInv false false red
  let bass ← bassNote ct root inv pt false
  .ok ⟨root, bass, vectorFromChordType ct pt (some root)⟩

/-- The fields of a data point that are changed. -/
structure ClassItem where
  target : Int
  length : Int
  inputs : List (List ℚ)
  intermediate : Option Intermediate
  deriving DecidableEq

/-- datasets.py:532-551: the new target. -/
def moveTarget (target t : Int) (pt : PitchType) (red : Reduction) (useInv : Bool) : Py Int := do
  let (root, ct, inv) ← chordFromOneHotIndex target pt useInv false false red
  chordOneHotIndex ct (root + t) pt inv useInv false false red

/-- datasets.py:553-560: one input vector. -/
def moveInput (t : Int) (pt : PitchType) (v : List ℚ) : Py (List ℚ) :=
  if v.sum = 0 then .ok v else transposeNoteVector v t pt

/-- datasets.py:553-560: the input vectors. `data["input_lengths"]` is not negative. -/
def moveInputs (t : Int) (pt : PitchType) (inputs : List (List ℚ)) (length : Int) : Py (List (List ℚ)) := do
  let front ← (inputs.take length.toNat).mapM (moveInput t pt)
  .ok (front ++ inputs.drop length.toNat)

/-- datasets.py:531-562: the body of the `try`, for the reduced target. -/
def moveItem (t : Int) (pt : PitchType) (red : Reduction) (useInv : Bool) (x : ClassItem) : Py ClassItem := do
  let target ← if t ≠ 0 then moveTarget x.target t pt red useInv else .ok x.target
  let inputs ← if t ≠ 0 then moveInputs t pt x.inputs x.length else .ok x.inputs
  let mid ← intermediateTargets target pt red useInv
  .ok ⟨target, x.length, inputs, some mid⟩

/-- datasets.py:564-577: the data point if something is out of range. -/
def noItem (pt : PitchType) (x : ClassItem) : ClassItem :=
  ⟨-1, -1, x.inputs.map (fun v => v.map (fun _ => 0)), some ⟨-1, -1, List.replicate (NUM_PITCHES pt).toNat 0⟩⟩

/-- datasets.py:564: the `except`. -/
def orElse (x : ClassItem) : Py ClassItem → Py ClassItem
  | .error .valueError => .ok x
  | r => r

/-- datasets.py:507-577 `ChordClassificationDataset.reduce` without dummy targets. -/
def reduceClass (t : Int) (pt : PitchType) (red : Reduction) (useInv : Bool) (x : ClassItem) : Py ClassItem := do
  let targets ← reduceChordOneHots [x.target] false pt true noReduction false red useInv
  let target ← pyGet targets 0
  orElse (noItem pt x) (moveItem t pt red useInv { x with target := target })

/-! ## Pitch-based chord sequences -/

/-- datasets.py:705-709, beam_search_utils.py:457-462. -/
def csmPitches : PitchType → Nat
  | .midi => (NUM_PITCHES .midi).toNat
  | .tpc => (MAX_RELATIVE_TPC - MIN_RELATIVE_TPC).toNat

/-- datasets.py:732-733. -/
def shiftedRoot (root : Int) : PitchType → Int
  | .tpc => root - MIN_RELATIVE_TPC
  | .midi => root

/-- datasets.py:741-744: the first entries of a vector. The failing `assert` is kept as a `ValueError`. -/
def cutVector (n : Nat) (v : List Nat) : Py (List Int) :=
  if (v.drop n).sum = 0 then .ok ((v.take n).map (fun (a : Nat) => (a : Int))) else .error .valueError

/-- datasets.py:723-744: the row of a target. -/
def pitchTarget (target : Int) (pt : PitchType) (red : Reduction) (useInv : Bool) : Py (List Int) := do
  let (root, ct, _) ← chordFromOneHotIndex target pt useInv true false red
  cutVector (csmPitches pt) (vectorFromChordType ct pt (some (shiftedRoot root pt)))

/-- datasets.py:710-746: the pitch-based targets, for the reduced targets, the last entries of the input
vectors (whether there is a key change) and `target_lengths`. -/
def pitchTargets (targets : List Int) (changes : List Bool) (length : Nat) (pt : PitchType) (red : Reduction)
    (useInv : Bool) : Py (List (List Int)) :=
  ((List.range targets.length).zip (targets.zip changes)).mapM (fun x =>
    if x.1 = 0 ∨ length ≤ x.1 ∨ x.2.2 = true then .ok (List.replicate (csmPitches pt) (-100))
    else pitchTarget x.2.1 pt red useInv)

/-- beam_search_utils.py:464-478: the vector of a chord, by which the prior is read. -/
def priorVector (index : Int) (pt : PitchType) (red : Reduction) (useInv : Bool) : Py (List Nat) := do
  let (root, ct, _) ← chordFromOneHotIndex index pt useInv true false red
  .ok ((vectorFromChordType ct pt (some root)).take (csmPitches pt))

/-- beam_search_utils.py:480-483: the prior of a chord for one input; `p` are the logarithms of the
probabilities of the pitches, `q` those of the converse probabilities. -/
def pitchPrior (p q : List ℚ) (v : List Nat) : ℚ :=
  (((p.zip v).filter (fun x => decide (x.2 = 1))).map (·.1)).sum +
    (((q.zip v).filter (fun x => decide (x.2 = 0))).map (·.1)).sum

/-- /repo/harmonic_inference/models/chord_sequence_models.py:484 (also 501 and 530): whether a row of the targets
is kept by `flat_mask`. -/
def keptInTraining (row : List Int) : Bool := decide (row[0]? = some 0)

end Verif
