import Verif.Inference

/-!
# Running the neural networks

Model of `forward`, `run_one_step` and `get_output` of the models in /repo/harmonic_inference/models, at evaluation
(dropout does nothing). Vectors are lists of rationals. The weights are given by functions: a cell of an LSTM by its step
and its output, linear layers and activations by functions of one vector. The LSTM of torch reads each of the packed
sequences on its own, layer by layer. The state of a cell is the pair of the hidden and the cell state.
-/

namespace Verif

/-- A vector of an input, or an output of a layer. -/
abbrev Vec := List ℚ

/-- One direction of a layer of `nn.LSTM`. -/
structure Cell (S : Type) where
  step : S → Vec → S
  out : S → Vec

/-- A layer of `nn.LSTM` on one sequence: its outputs and its last state. -/
def runCell {S : Type} (c : Cell S) : S → List Vec → List Vec × S
  | s, [] => ([], s)
  | s, x :: xs =>
    let s' := c.step s x
    let r := runCell c s' xs
    (c.out s' :: r.1, r.2)

/-- `nn.LSTM` with one direction on packed sequences: outputs, and last states by layer and sequence. -/
def packedUni {S : Type} : List (Cell S) → List (List S) → List (List Vec) → List (List Vec) × List (List S)
  | c :: cs, ss :: hs, seqs =>
    let r := List.zipWith (runCell c) ss seqs
    let q := packedUni cs hs (r.map Prod.fst)
    (q.1, r.map Prod.snd :: q.2)
  | _, _, seqs => (seqs, [])

/-- `pack_padded_sequence`: each row up to its length; a length which is 0 or greater than that of the rows raises. -/
def packPadded (rows : List (List Vec)) (lengths : List Nat) : Py (List (List Vec)) :=
  if lengths.length = rows.length ∧ (∀ x ∈ rows.zip lengths, 0 < x.2 ∧ x.2 ≤ x.1.length) then
    .ok (List.zipWith List.take lengths rows)
  else .error .valueError

/-- `pad_packed_sequence`: rows are padded to the longest of them. -/
def padPacked {α : Type} (padding : α) (rows : List (List α)) : List (List α) :=
  rows.map fun r => r ++ List.replicate (maxLength (rows.map List.length) - r.length) padding

/-- chord_sequence_models.py:270-314, key_transition_models.py:228-272, key_sequence_models.py:230-267: the layers of the
models whose LSTM has one direction. `head` are the layers after the LSTM, with the last activation. -/
structure UniNet (S O : Type) where
  embed : Vec → Vec
  cells : List (Cell S)
  zero : S
  padding : Vec
  head : Vec → O

/-- `torch.transpose(m, 0, 1)` of a tensor with `k` columns. -/
def transpose01 {S : Type} (k : Nat) (m : List (List S)) : List (List S) :=
  (List.range k).map fun j => m.filterMap (·[j]?)

namespace UniNet
variable {S O : Type}

/-- chord_sequence_models.py:316-332 `init_hidden`, and likewise the others. -/
def initHidden (N : UniNet S O) (n : Nat) : List (List S) := List.replicate N.cells.length (List.replicate n N.zero)

/-- chord_sequence_models.py:334-344, key_transition_models.py:292-301, key_sequence_models.py:287-297: up to the padded
outputs of the LSTM. A hidden state with another shape than layers times rows raises. -/
def lstm (N : UniNet S O) (rows : List (List Vec)) (lengths : List Nat) (hidden : Option (List (List S))) :
    Py (List (List Vec) × List (List S)) := do
  let h := hidden.getD (N.initHidden rows.length)
  let packed ← packPadded (rows.map (·.map N.embed)) (lengths.map (max 1))
  if h.length = N.cells.length ∧ ∀ r ∈ h, r.length = rows.length then
    let r := packedUni N.cells h packed
    .ok (padPacked N.padding r.1, r.2)
  else .error .valueError

/-- chord_sequence_models.py:334-352 and 571-589, key_transition_models.py:292-309 `forward`. -/
def forward (N : UniNet S O) (rows : List (List Vec)) (lengths : List Nat) (hidden : Option (List (List S))) :
    Py (List (List O) × List (List S)) := do
  let r ← N.lstm rows lengths hidden
  .ok (r.1.map (·.map N.head), r.2)

/-- key_sequence_models.py:287-310 `forward`: only the output at the end of each sequence. -/
def forwardLast (N : UniNet S O) (rows : List (List Vec)) (lengths : List Nat) (hidden : Option (List (List S))) :
    Py (List O × List (List S)) := do
  let r ← N.lstm rows lengths hidden
  let last ← (r.1.zip (lengths.map (max 1))).mapM fun x => pyGet x.1 ((x.2 : Int) - 1)
  .ok (last.map N.head, r.2)

/-- chord_sequence_models.py:183-190, key_transition_models.py:162-169 `run_one_step`; the hidden states of the batch are
given by row and layer. -/
def runOneStep (N : UniNet S O) (rows : List (List Vec)) (hidden : List (List S)) :
    Py (List (List O) × List (List S)) :=
  N.forward rows (List.replicate rows.length 1) (some (transpose01 N.cells.length hidden))

/-- key_sequence_models.py:78-96 `get_data_from_batch` and `get_output`. -/
def getOutput (N : UniNet S O) (rows : List (List Vec)) (lengths : List Nat) (hidden : List (List S)) :
    Py (List O × List (List S)) :=
  N.forwardLast (rows.map (·.take (maxLength lengths))) lengths (some (transpose01 N.cells.length hidden))

/-- joint_model.py:1133-1134, 1206-1207, 1340-1341: `hidden_states[:, i] = h` if the state has a hidden state. -/
def setHidden (m : List (List S)) : Option (List S) × Nat → List (List S)
  | (none, _) => m
  | (some h, i) => List.zipWith (fun row s => row.set i s) m h

/-- joint_model.py:1130-1134, 1203-1207, 1337-1341: the hidden states of the states, by layer and state. -/
def statesHidden (N : UniNet S O) (hidden : List (Option (List S))) : List (List S) :=
  hidden.zipIdx.foldl setHidden (N.initHidden hidden.length)

/-- datasets.py:112-116: the hidden states of an item of the dataset. -/
def itemHidden (m : List (List S)) (i : Nat) : List S := m.filterMap (·[i]?)

/-- joint_model.py:1129-1167, 1336-1377: the outputs and the new hidden states of a list of states, for which the network
is run by one step. -/
def runStates (N : UniNet S O) (size : Nat) (inputs : List (List Vec)) (hidden : List (Option (List S))) :
    Py (List (O × List S)) := do
  let m := N.statesHidden hidden
  let items := inputs.zipIdx.map fun x => (x.1, itemHidden m x.2)
  let res ← (loaderBatches size items).mapM fun b => do
    let r ← N.runOneStep (b.map (·.1)) (b.map (·.2))
    let out ← r.1.mapM fun o => pyGet o 0
    .ok (out.zip (transpose01 b.length r.2))
  .ok res.flatten

end UniNet

/-! ### Networks with two directions -/

/-- A layer of `nn.LSTM` with two directions. -/
structure BiCell (S : Type) where
  fwd : Cell S
  bwd : Cell S

/-- A layer with two directions on one sequence: the outputs of the two directions at each position. -/
def runBiCell {S : Type} (zero : S) (c : BiCell S) (xs : List Vec) : List (Vec × Vec) :=
  (runCell c.fwd zero xs).1.zip (runCell c.bwd zero xs.reverse).1.reverse

/-- `nn.LSTM` with two directions on one sequence; a layer reads both outputs of the layer before. -/
def runBi {S : Type} (zero : S) : List (BiCell S) → List Vec → List (Vec × Vec)
  | [], _ => []
  | [c], xs => runBiCell zero c xs
  | c :: cs, xs => runBi zero cs ((runBiCell zero c xs).map fun x => x.1 ++ x.2)

/-- chord_classifier_models.py:247-270, chord_transition_models.py:209-231: the layers of the models whose LSTM has two
directions. The chord classifier has no embedding. -/
structure BiNet (S O : Type) where
  embed : Vec → Vec
  cells : List (BiCell S)
  zero : S
  padding : Vec
  head : Vec → O

namespace BiNet
variable {S O : Type}

/-- chord_classifier_models.py:294-302, chord_transition_models.py:255-265: the padded outputs of the LSTM. -/
def lstm (N : BiNet S O) (rows : List (List Vec)) (lengths : List Nat) : Py (List (List (Vec × Vec))) := do
  let packed ← packPadded (rows.map (·.map N.embed)) (lengths.map (max 1))
  .ok (padPacked (N.padding, N.padding) (packed.map (runBi N.zero N.cells)))

/-- chord_transition_models.py:255-273 `forward`. -/
def forward (N : BiNet S O) (rows : List (List Vec)) (lengths : List Nat) : Py (List (List O)) := do
  let r ← N.lstm rows lengths
  .ok (r.map (·.map fun x => N.head (x.1 ++ x.2)))

/-- chord_classifier_models.py:294-321 `forward`. `squeeze()` leaves out every dimension of size 1; if there is one row,
or if the hidden dimension is 1, the tensors cannot be concatenated (314). -/
def classify (N : BiNet S O) (hiddenDim : Nat) (rows : List (List Vec)) (lengths : List Nat) : Py (List O) := do
  let r ← N.lstm rows lengths
  let last ← (r.zip (lengths.map (max 1))).mapM fun x => pyGet (x.1.map Prod.fst) ((x.2 : Int) - 1)
  let first ← r.mapM fun x => pyGet (x.map Prod.snd) 0
  if rows.length = 1 ∨ hiddenDim = 1 then .error .indexError
  else .ok ((last.zip first).map fun x => N.head (x.1 ++ x.2))

/-- chord_transition_models.py:60-76 `get_output` and joint_model.py:631-650 `get_chord_change_probs`: the batch has one
row, the piece. -/
def changeProbs (N : BiNet S O) (inputs : List Vec) : Py (List O) := do
  let r ← N.forward [inputs.take inputs.length] [inputs.length]
  let o ← pyGet r 0
  .ok (o.take inputs.length)

/-- joint_model.py:811-837 `get_chord_classifications` for the windows of the ranges: items are padded to the longest
window (datasets.py:196-203). `size` is `valid_batch_size`; the head ends with the logarithm of the softmax. -/
def classifications (N : BiNet S O) (hiddenDim size : Nat) (zeroNote : Vec) (windows : List (List Vec)) :
    Py (List O) := do
  let items := windows.map fun w => (w ++ List.replicate (maxLength (windows.map List.length) - w.length) zeroNote, w.length)
  let res ← (loaderBatches size items).mapM fun b => N.classify hiddenDim (b.map (·.1)) (b.map (·.2))
  .ok res.flatten

end BiNet

end Verif
