import Verif.Py
import Mathlib.Data.Rat.Defs
import Mathlib.Algebra.Order.Ring.Rat
import Mathlib.Algebra.BigOperators.Group.List.Basic

/-!
# Evaluation of the models

Model of `evaluate` and `get_data_from_batch` of the models in /repo/harmonic_inference/models. A model is given by its
outputs; the output of a data point does not depend on the other data points of its batch. Numbers are rationals, and
NaN is `none`.
-/

namespace Verif

/-- A position of a data point: its (rounded or most likely) output, its target, its loss, and whether its input
vector is not zero. -/
structure EvalPosition where
  output : Int
  target : Int
  loss : ℚ
  present : Bool := true
  deriving DecidableEq, Repr

/-- `DataLoader(dataset, batch_size=b)` without shuffling, e.g. chord_transition_models.py:108: data points in order;
`fuel` is at least the number of data points. -/
def batchesAux {α : Type} (b : Nat) : Nat → List α → List (List α)
  | 0, _ => []
  | _ + 1, [] => []
  | fuel + 1, x :: l => (x :: l).take b :: batchesAux b fuel ((x :: l).drop b)

/-- chord_transition_models.py:108: the batches. -/
def batchesOf {α : Type} (b : Nat) (l : List α) : List (List α) := batchesAux b l.length l

/-- chord_transition_models.py:125: `100 * (outputs == targets).sum() / len(outputs)`. -/
def accOf (l : List EvalPosition) : Option ℚ :=
  if l = [] then none else some (100 * ((l.filter fun p => p.output = p.target).length : ℚ) / (l.length : ℚ))

/-- chord_transition_models.py:124: the mean of the losses. -/
def lossOf (l : List EvalPosition) : Option ℚ :=
  if l = [] then none else some ((l.map EvalPosition.loss).sum / (l.length : ℚ))

/-- `total += x * count` where `x` may be NaN, chord_transition_models.py:128-129. -/
def addWeighted (total : Option ℚ) (x : Option ℚ) (count : Nat) : Option ℚ :=
  match total, x with
  | some t, some x => some (t + x * (count : ℚ))
  | _, _ => none

/-- chord_transition_models.py:127-129: the totals after a batch with the given count, accuracy and loss. -/
def evalStep (s : Nat × Option ℚ × Option ℚ) (b : Nat × Option ℚ × Option ℚ) : Nat × Option ℚ × Option ℚ :=
  (s.1 + b.1, addWeighted s.2.1 b.2.1 b.1, addWeighted s.2.2 b.2.2 b.1)

/-- chord_transition_models.py:132: division of a tensor by a count; `0 / 0` is NaN. -/
def meanOf (total : Option ℚ) (count : Nat) : Option ℚ :=
  if count = 0 then none else total.map (· / (count : ℚ))

/-- chord_transition_models.py:110-134: the loop and the result, given the counts, accuracies and losses of the
batches. Without batches the totals are Python's integers, and the division raises. -/
def runEval (bs : List (Nat × Option ℚ × Option ℚ)) : Py (Option ℚ × Option ℚ) :=
  if bs = [] then .error .zeroDivisionError
  else
    let s := bs.foldl evalStep (0, some 0, some 0)
    .ok (meanOf s.2.1 s.1, meanOf s.2.2 s.1)

/-- chord_transition_models.py:115-125: positions that count are taken from all data points of the batch. -/
def maskedBatch (counted : EvalPosition → Bool) (batch : List (List EvalPosition)) : Nat × Option ℚ × Option ℚ :=
  let f := batch.flatten.filter counted
  (f.length, accOf f, lossOf f)

/-- The loop of the models with masks. -/
def evaluateMasked (counted : EvalPosition → Bool) (b : Nat) (points : List (List EvalPosition)) :
    Py (Option ℚ × Option ℚ) :=
  runEval ((batchesOf b points).map (maskedBatch counted))

/-- chord_transition_models.py:69 and 107-134 `ChordTransitionModel.evaluate`. -/
def evaluateCtm (b : Nat) (points : List (List EvalPosition)) : Py (Option ℚ × Option ℚ) :=
  evaluateMasked (fun p => p.present && p.target != -100) b points

/-- key_transition_models.py:82 and 116-143 `KeyTransitionModel.evaluate`, and chord_sequence_models.py:136-164
`ChordSequenceModel.evaluate` (the loss ignores the same positions). -/
def evaluateKtm (b : Nat) (points : List (List EvalPosition)) : Py (Option ℚ × Option ℚ) :=
  evaluateMasked (fun p => p.target != -100) b points

/-- chord_classifier_models.py:124-148 `ChordClassifierModel.evaluate`: one position for each data point. The loss
raises for targets out of range, as is the target -1 of transpositions out of range, datasets.py:507-577. -/
def evaluateCcm (b : Nat) (points : List EvalPosition) : Py (Option ℚ × Option ℚ) :=
  if points.any fun p => p.target == -1 then .error .indexError
  else runEval ((batchesOf b points).map fun f => (f.length, accOf f, lossOf f))

/-- key_sequence_models.py:119-142 `KeySequenceModel.evaluate`: one position for each data point. `len(batch)` is the
number of fields of the dictionary. -/
def evaluateKsm (fields b : Nat) (points : List EvalPosition) : Py (Option ℚ × Option ℚ) :=
  runEval ((batchesOf b points).map fun f => (fields, accOf f, lossOf f))

/-- chord_sequence_models.py:102: targets of key changes are left out. -/
def maskKeyChanges : List Bool → List Int → List Int
  | c :: cs, t :: ts => (if c then -100 else t) :: maskKeyChanges cs ts
  | _, ts => ts

/-- chord_sequence_models.py:103: `targets[:, 0] = -100`. -/
def maskFirst : List Int → List Int
  | [] => []
  | _ :: ts => -100 :: ts

/-- chord_sequence_models.py:105: `targets[i, length:] = -100`. -/
def maskFrom (length : Nat) (l : List Int) : List Int := l.take length ++ (l.drop length).map fun _ => -100

/-- chord_sequence_models.py:106: `torch.roll(targets, -1, dims=1)`. -/
def rollBack : List Int → List Int
  | [] => []
  | t :: ts => ts ++ [t]

/-- chord_sequence_models.py:92-108 `ChordSequenceModel.get_data_from_batch`: the targets of a row of the batch.
`changes` are the key change flags of its inputs, `longest` the length of the longest input of the batch. -/
def csmTargets (longest length : Nat) (changes : List Bool) (targets : List Int) : List Int :=
  rollBack (maskFrom length (maskFirst (maskKeyChanges (changes.take longest) (targets.take longest))))

/-- datasets.py:349: `target[indices] = 1`; an index that is too large raises, a negative one counts from the end. -/
def setOnes : List Int → List Int → Py (List Int)
  | target, [] => .ok target
  | target, i :: is =>
    if 0 ≤ i ∧ i < target.length then setOnes (target.set i.toNat 1) is
    else if i < 0 ∧ -(target.length : Int) ≤ i then setOnes (target.set (i + target.length).toNat 1) is
    else .error .indexError

/-- datasets.py:351: `np.roll(a, 1)`. -/
def rollOne (l : List Bool) : List Bool := l.drop (l.length - 1) ++ l.take (l.length - 1)

/-- datasets.py:351: `target[mask] = -100`; lengths have to agree. -/
def setMasked : List Int → List Bool → Py (List Int)
  | [], [] => .ok []
  | t :: ts, m :: ms => do
    let rest ← setMasked ts ms
    .ok ((if m then -100 else t) :: rest)
  | _, _ => .error .indexError

/-- datasets.py:346-351: the targets of a piece for the chord transition model, given the number of inputs, the
chord change indices and the duration cache. Without inputs `np.vstack` raises (datasets.py:333). -/
def ctmTargets (n : Nat) (changes : List Int) (cache : List ℚ) : Py (List Int) :=
  if n = 0 then .error .valueError
  else do
    let t ← setOnes (List.replicate n 0) changes
    setMasked (t.set 0 (-100)) (rollOne (cache.map fun d => decide (d = 0)))

end Verif
