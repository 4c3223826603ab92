import Verif.Py
import Mathlib.Data.Rat.Defs
import Mathlib.Algebra.BigOperators.Group.List.Basic

/-!
# The transposition invariant classifier

Model of `TranspositionInvariantCNNClassifier` in /repo/harmonic_inference/models/chord_classifier_models.py with the
shapes of its tensors. Numbers are rational. A `RuntimeError` of torch about shapes is `valueError`.
-/

namespace Verif

/-- chord_classifier_models.py:355-401: the sizes and weights of the classifier. `kernels`: for each channel of the
convolution its kernel (for one channel of inputs, which is what `forward` makes) and its bias. `layers`: what the input
layer, the hidden layers and the output layer with their dropouts and batch norms make of the rows (they keep the number
of rows). -/
structure InvariantCnn where
  pitchVectorLength : Nat
  kernels : List (List ℚ × ℚ)
  layers : List (List ℚ) → List (List ℚ)

/-- chord_classifier_models.py:373-379: each kernel has as many weights as there are pitches (`nn.Conv1d`). -/
def InvariantCnn.Shaped (net : InvariantCnn) : Prop := ∀ k ∈ net.kernels, k.1.length = net.pitchVectorLength

/-- `padding_mode="circular"`: as many values from the end in front, and from the front at the end; torch does not wrap
around more than once. -/
def circularPad (p : Nat) (x : List ℚ) : Py (List ℚ) :=
  if p ≤ x.length then .ok (x.drop (x.length - p) ++ x ++ x.take p) else .error .valueError

/-- One place of a convolution. -/
def kernelAt (w x : List ℚ) : ℚ := (List.zipWith (· * ·) w x).sum

/-- A convolution with one channel of inputs. -/
def slide (k : List ℚ × ℚ) (x : List ℚ) : List ℚ :=
  (List.range (x.length + 1 - k.1.length)).map fun j => kernelAt k.1 (x.drop j) + k.2

/-- chord_classifier_models.py:405 `self.conv(data.unsqueeze(1))` of one element of the batch. -/
def InvariantCnn.conv (net : InvariantCnn) (x : List ℚ) : Py (List (List ℚ)) :=
  (circularPad net.pitchVectorLength x).map fun y => net.kernels.map fun k => slide k y

/-- `F.relu`. -/
def relu (q : ℚ) : ℚ := max q 0

/-- `reshape(rows, -1)` of values in order. -/
def reshapeRows (rows : Nat) (l : List ℚ) : Py (List (List ℚ)) :=
  if rows = 0 ∨ l.length % rows ≠ 0 then .error .valueError
  else .ok ((List.range rows).map fun i => (l.drop (i * (l.length / rows))).take (l.length / rows))

/-- The data of a batch: rows of values, as `forward` can use it, or channels of rows, as the documentation of the class
has it (331-332). -/
inductive CnnData where
  | rows (l : List (List ℚ))
  | channels (l : List (List (List ℚ)))

/-- chord_classifier_models.py:404-411: the rows which go into the parallel layers. With one dimension more
`nn.Conv1d` raises. The input layer needs as many columns as there are channels (389). -/
def InvariantCnn.parallelIn (net : InvariantCnn) : CnnData → Py (List (List ℚ))
  | .channels _ => .error .valueError
  | .rows data => do
    let convs ← data.mapM net.conv
    let rows ← reshapeRows (data.length * 12) ((convs.flatten.flatten).map relu)
    if rows.all fun r => decide (r.length = net.kernels.length) then .ok rows else .error .valueError

/-- `tensor.reshape(rows / 12, -1)`: the quotient is a `float`, which `reshape` does not take. -/
def reshapeFloat (_rows : ℚ) (_l : List (List ℚ)) : Py (List (List ℚ)) := .error .typeError

/-- chord_classifier_models.py:403-426 `forward`. -/
def InvariantCnn.forward (net : InvariantCnn) (data : CnnData) : Py (List (List ℚ)) := do
  let rows ← net.parallelIn data
  let out := (net.layers rows).map fun r => r.map relu
  reshapeFloat (out.length / 12) out

end Verif
