import Verif.ModelEval
import Verif.ClassData
import Verif.Datasets

/-!
# Steps of training and validation

Model of `training_step` and `validation_step` of the models in /repo/harmonic_inference/models, and of `evaluate` of
the pitch-based chord sequence model. As in `Verif.ModelEval`, a model is given by its outputs and losses, numbers are
rationals, and NaN is `none`.
-/

namespace Verif

/-- chord_transition_models.py:78-90: the loss of `training_step`, over the positions that count. Also
chord_sequence_models.py:110-118 (where `ignore_index` leaves positions out) and key_transition_models.py:86-98. -/
def maskedTraining (counted : EvalPosition → Bool) (batch : List (List EvalPosition)) : Option ℚ :=
  lossOf (batch.flatten.filter counted)

/-- chord_transition_models.py:92-105: the loss and the accuracy that `validation_step` logs. Also
chord_sequence_models.py:120-134 and key_transition_models.py:100-114. -/
def maskedValidation (counted : EvalPosition → Bool) (batch : List (List EvalPosition)) : Option ℚ × Option ℚ :=
  (lossOf (batch.flatten.filter counted), accOf (batch.flatten.filter counted))

/-- chord_transition_models.py:69 and 78-90 `ChordTransitionModel.training_step`. -/
def trainCtm (batch : List (List EvalPosition)) : Option ℚ :=
  maskedTraining (fun p => p.present && p.target != -100) batch

/-- chord_transition_models.py:69 and 92-105 `ChordTransitionModel.validation_step`. -/
def validateCtm (batch : List (List EvalPosition)) : Option ℚ × Option ℚ :=
  maskedValidation (fun p => p.present && p.target != -100) batch

/-- key_transition_models.py:82 and 86-98 `KeyTransitionModel.training_step`, and chord_sequence_models.py:110-118
`ChordSequenceModel.training_step`. -/
def trainKtm (batch : List (List EvalPosition)) : Option ℚ := maskedTraining (fun p => p.target != -100) batch

/-- key_transition_models.py:82 and 100-114 `KeyTransitionModel.validation_step`, and chord_sequence_models.py:120-134
`ChordSequenceModel.validation_step`. -/
def validateKtm (batch : List (List EvalPosition)) : Option ℚ × Option ℚ :=
  maskedValidation (fun p => p.target != -100) batch

/-- key_sequence_models.py:98-106 `KeySequenceModel.training_step`. -/
def trainKsm (batch : List EvalPosition) : Option ℚ := lossOf batch

/-- key_sequence_models.py:108-117 `KeySequenceModel.validation_step`. -/
def validateKsm (batch : List EvalPosition) : Option ℚ × Option ℚ := (lossOf batch, accOf batch)

/-- chord_classifier_models.py:95-104 `ChordClassifierModel.training_step`, with `ignore_index=-1`. -/
def trainCcm (batch : List EvalPosition) : Option ℚ := lossOf (batch.filter fun p => p.target != -1)

/-- chord_classifier_models.py:106-122 `ChordClassifierModel.validation_step`; `none` if nothing is logged. -/
def validateCcm (batch : List EvalPosition) : Option (Option ℚ × Option ℚ) :=
  let f := batch.filter fun p => p.target != -1
  if 0 < f.length then some (lossOf f, accOf f) else none

/-! ## The pitch-based chord sequence model -/

/-- A row of the outputs of the pitch-based model with its row of the targets, chord_sequence_models.py:482-483. -/
structure PitchRow where
  output : List ℚ
  target : List Int

/-- chord_sequence_models.py:422: `output_dim`, whatever the type of the pitches. -/
def pitchOutputDim : Nat := (MAX_RELATIVE_TPC - MIN_RELATIVE_TPC).toNat

/-- chord_sequence_models.py:484-487: the rows that are kept. -/
def keptRows (rows : List PitchRow) : List PitchRow := rows.filter fun r => keptInTraining r.target

/-- `F.binary_cross_entropy(..., reduction="none")`, chord_sequence_models.py:537. The sizes have to agree; they are
`output_dim` and the number of pitches of the dataset (datasets.py:705-709) also if there are no rows. `bce` is the loss
of an entry. -/
def pitchLosses (bce : ℚ → Int → ℚ) (pt : PitchType) (rows : List PitchRow) : Py (List (List ℚ)) :=
  if pitchOutputDim = csmPitches pt then .ok (rows.map fun r => r.output.zipWith bce r.target)
  else .error .valueError

/-- The mean of the entries of a tensor. -/
def meanEntries (m : List (List ℚ)) : Option ℚ :=
  if m.flatten = [] then none else some (m.flatten.sum / (m.flatten.length : ℚ))

/-- chord_sequence_models.py:508-510: `100 * (flat_outputs.round() == flat_targets).sum() / len(...)`; torch rounds as Python. -/
def pitchAcc (rows : List PitchRow) : Option ℚ :=
  let l := rows.flatMap fun r => r.output.zipWith (fun o t => decide (pyRound o = t)) r.target
  if l = [] then none else some (100 * ((l.filter id).length : ℚ) / (l.length : ℚ))

/-- chord_sequence_models.py:477-493 `PitchBasedChordSequenceModel.training_step`. -/
def trainPitch (bce : ℚ → Int → ℚ) (pt : PitchType) (rows : List PitchRow) : Py (Option ℚ) := do
  let m ← pitchLosses bce pt (keptRows rows)
  .ok (meanEntries m)

/-- chord_sequence_models.py:495-514 `PitchBasedChordSequenceModel.validation_step`. -/
def validatePitch (bce : ℚ → Int → ℚ) (pt : PitchType) (rows : List PitchRow) : Py (Option ℚ × Option ℚ) := do
  let m ← pitchLosses bce pt (keptRows rows)
  .ok (meanEntries m, pitchAcc (keptRows rows))

/-- Addition of tensors with the same number of columns: a single row is added to all rows; other numbers of rows have
to agree, and torch raises a `RuntimeError` (kept as a `ValueError`) if they do not. -/
def addTensors (a b : List (List ℚ)) : Py (List (List ℚ)) :=
  match a, b with
  | [x], b => .ok (b.map fun y => x.zipWith (· + ·) y)
  | a, [y] => .ok (a.map fun x => x.zipWith (· + ·) y)
  | a, b => if a.length = b.length then .ok (a.zipWith (fun x y => x.zipWith (· + ·) y) b) else .error .valueError

/-- The totals of `evaluate`: the count, the accuracy, and the tensor of the losses (`none` for the integer 0). -/
structure PitchTotals where
  count : Nat
  acc : Option ℚ
  loss : Option (List (List ℚ))

/-- chord_sequence_models.py:546: `total_loss += ...`. -/
def addLosses : Option (List (List ℚ)) → List (List ℚ) → Py (List (List ℚ))
  | none, m => .ok m
  | some t, m => addTensors t m

/-- chord_sequence_models.py:525-547: one batch. -/
def pitchEvalStep (bce : ℚ → Int → ℚ) (pt : PitchType) (s : PitchTotals) (rows : List PitchRow) : Py PitchTotals := do
  let m ← pitchLosses bce pt (keptRows rows)
  let t ← addLosses s.loss (m.map fun r => r.map (· * (rows.length : ℚ)))
  .ok ⟨s.count + rows.length, addWeighted s.acc (pitchAcc (keptRows rows)) rows.length, some t⟩

/-- `Tensor.item()`: raises unless there is exactly one entry. -/
def tensorItem (m : List (List ℚ)) : Py ℚ :=
  match m.flatten with
  | [x] => .ok x
  | _ => .error .valueError

/-- chord_sequence_models.py:549-551: the result. Without batches the totals are Python's integers, and the division
raises. -/
def pitchResult (s : PitchTotals) : Py (Option ℚ × ℚ) :=
  match s.loss with
  | none => .error .zeroDivisionError
  | some t => do
    let loss ← tensorItem (t.map fun r => r.map (· / (s.count : ℚ)))
    .ok (meanOf s.acc s.count, loss)

/-- chord_sequence_models.py:516-551 `PitchBasedChordSequenceModel.evaluate`. -/
def evaluatePitch (bce : ℚ → Int → ℚ) (pt : PitchType) (batches : List (List PitchRow)) : Py (Option ℚ × ℚ) := do
  let s ← batches.foldlM (pitchEvalStep bce pt) ⟨0, some 0, none⟩
  pitchResult s

end Verif
