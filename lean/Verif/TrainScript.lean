import Verif.Checkpoints
import Verif.KwargsJson
import Verif.Vectors

/-!
# The training script

Model of /repo/train.py:142-290: which model is made with which arguments, and where its checkpoints are written; and of
the sizes of the two chord sequence models, /repo/harmonic_inference/models/chord_sequence_models.py:212-314 and 368-456,
by which loading a checkpoint tells them apart. The fit itself is not modelled: a run writes any checkpoints.
-/

namespace Verif

/-- The classes which train.py makes: 153-203. -/
inductive TrainClass where
  | ccm | ctm | csm | csmPitch | ktm | ksm
  deriving DecidableEq, Repr

/-- train.py:153-203: the class for `--model` and `--pitch-based`; `none` for `icm` (208-232) and for other names. -/
def trainClass (model : Str) (pitchBased : Bool) : Option TrainClass :=
  if model = (chars% "ccm") then some .ccm
  else if model = (chars% "ctm") then some .ctm
  else if model = (chars% "csm") then some (if pitchBased then .csmPitch else .csm)
  else if model = (chars% "ktm") then some .ktm
  else if model = (chars% "ksm") then some .ksm
  else none

/-- The names of the classes, as in `modelClasses`. -/
def TrainClass.className : TrainClass → Str
  | .ccm => chars% "SimpleChordClassifier"
  | .ctm => chars% "SimpleChordTransitionModel"
  | .csm => chars% "SimpleChordSequenceModel"
  | .csmPitch => chars% "PitchBasedChordSequenceModel"
  | .ktm => chars% "SimpleKeyTransitionModel"
  | .ksm => chars% "SimpleKeySequenceModel"

/-- train.py:161, 170, 189, 198, 208: `dataset`. -/
def TrainClass.dataset : TrainClass → H5Class
  | .ccm => .chordClassification
  | .ctm => .chordTransition
  | .csm => .chordSequence
  | .csmPitch => .chordSequence
  | .ktm => .keyTransition
  | .ksm => .keySequence

/-- The parameters of `__init__`: chord_classifier_models.py:186-199, chord_transition_models.py:173-183,
chord_sequence_models.py:212-227 and 368-381, key_transition_models.py:191-203, key_sequence_models.py:181-194. -/
def TrainClass.params : TrainClass → List Str
  | .ccm => [chars% "input_type", chars% "input_pitch", chars% "output_pitch", chars% "reduction",
      chars% "use_inversions", chars% "transposition_range", chars% "lstm_layers", chars% "lstm_hidden_dim",
      chars% "hidden_dim", chars% "dropout", chars% "learning_rate"]
  | .ctm => [chars% "input_type", chars% "pitch_type", chars% "embed_dim", chars% "lstm_layers",
      chars% "lstm_hidden_dim", chars% "hidden_dim", chars% "dropout", chars% "learning_rate"]
  | .csm => [chars% "input_chord_pitch_type", chars% "input_key_pitch_type", chars% "output_pitch_type",
      chars% "input_reduction", chars% "output_reduction", chars% "use_input_inversions",
      chars% "use_output_inversions", chars% "embed_dim", chars% "lstm_layers", chars% "lstm_hidden_dim",
      chars% "hidden_dim", chars% "dropout", chars% "learning_rate"]
  | .csmPitch => [chars% "input_chord_pitch_type", chars% "input_key_pitch_type", chars% "output_pitch_type",
      chars% "input_reduction", chars% "use_input_inversions", chars% "embed_dim", chars% "lstm_layers",
      chars% "lstm_hidden_dim", chars% "hidden_dim", chars% "dropout", chars% "learning_rate"]
  | .ktm => [chars% "input_chord_pitch_type", chars% "input_key_pitch_type", chars% "embed_dim", chars% "lstm_layers",
      chars% "lstm_hidden_dim", chars% "hidden_dim", chars% "dropout", chars% "learning_rate",
      chars% "use_inversions", chars% "reduction"]
  | .ksm => [chars% "input_chord_pitch_type", chars% "input_key_pitch_type", chars% "output_pitch_type",
      chars% "embed_dim", chars% "lstm_layers", chars% "lstm_hidden_dim", chars% "hidden_dim", chars% "dropout",
      chars% "learning_rate", chars% "use_inversions", chars% "reduction"]

/-- An argument of a model. -/
inductive TrainValue where
  | piece (k : PieceKind)
  | pitch (t : PitchType)
  | rate (r : ℚ)
  | kwarg (v : KwValue)
  deriving DecidableEq

/-- train.py:154-157, 164-166, 174-177, 182-185, 192-194, 201-204: the arguments without a name. -/
def TrainClass.positional : TrainClass → List TrainValue
  | .ccm => [.piece .score, .pitch .tpc, .pitch .tpc]
  | .ctm => [.piece .score, .pitch .tpc]
  | .csm => [.pitch .tpc, .pitch .tpc, .pitch .tpc]
  | .csmPitch => [.pitch .tpc, .pitch .tpc, .pitch .tpc]
  | .ktm => [.pitch .tpc, .pitch .tpc]
  | .ksm => [.pitch .tpc, .pitch .tpc, .pitch .tpc]

/-- A call with named arguments: a parameter which has a value already, or a name which is no parameter, is a
`TypeError`. -/
def bindNamed (params : List Str) : List (Str × TrainValue) → List (Str × TrainValue) → Py (List (Str × TrainValue))
  | bound, [] => .ok bound
  | bound, (k, v) :: rest =>
    if k ∈ bound.map Prod.fst then .error .typeError
    else if k ∈ params then bindNamed params (bound ++ [(k, v)]) rest
    else .error .typeError

/-- train.py:151 and 154-205: the arguments with which the model is made; the others keep their defaults. `file` are
the contents of `--model-kwargs`. That a value has the wrong type is not modelled. -/
def trainArgs (c : TrainClass) (lr : ℚ) (file : Option (List (Str × KwJson))) : Py (List (Str × TrainValue)) := do
  let kwargs ← loadKwargs file
  bindNamed c.params (c.params.zip c.positional)
    ((chars% "learning_rate", .rate lr) :: kwargs.map fun x => (x.1, .kwarg x.2))

/-! ### The checkpoints -/

/-- `os.path.join` of two paths, the second of which is not absolute. -/
def joinPath (a b : Str) : Str := if a = [] ∨ a.getLast? = some '/' then a ++ b else a ++ '/' :: b

/-- A run of the script: `--model` and the names of the checkpoints it writes. -/
structure TrainRun where
  model : Str
  files : List Str
  deriving DecidableEq

/-- The runs which are in the directory of checkpoints, with their versions. -/
abbrev TrainDir := List (TrainRun × Nat)

/-- train.py:281-289: without a logger, the trainer makes a `TensorBoardLogger` for `default_root_dir`, whose version is
one more than the largest one which is there, and 0 if there is none. -/
def nextVersion (dir : TrainDir) (model : Str) : Nat :=
  ((dir.filter fun x => x.1.model = model).map fun x => x.2 + 1).foldr max 0

/-- train.py:142-290: one run. Its version is used up even if it writes no checkpoint. -/
def trainStep (dir : TrainDir) (r : TrainRun) : TrainDir := dir ++ [(r, nextVersion dir r.model)]

/-- Runs one after the other, in a directory which is empty at first. -/
def trainAll (runs : List TrainRun) : TrainDir := runs.foldl trainStep []

/-- train.py:144 and 282: where a run writes a checkpoint. -/
def trainedPath (checkpoint model : Str) (version : Nat) (file : Str) : Str :=
  joinPath (joinPath (joinPath (joinPath (joinPath checkpoint model) (chars% "lightning_logs"))
    ((chars% "version_") ++ intStr version)) (chars% "checkpoints")) file

/-- All checkpoints in the directory. -/
def trainedPaths (checkpoint : Str) (dir : TrainDir) : List Str :=
  dir.flatMap fun x => x.1.files.map (trainedPath checkpoint x.1.model x.2)

/-- train.py:144 and 227-229: where the initial chord prior is written. -/
def icmTrainedPath (checkpoint : Str) : Str :=
  joinPath (joinPath checkpoint (chars% "icm")) (chars% "initial_chord_prior.json")

/-! ### The two chord sequence models -/

/-- The parameters which both classes have and which decide about sizes: chord_sequence_models.py:214-224, 370-378. -/
structure CsmSizes where
  chordType : PitchType
  keyType : PitchType
  outType : PitchType
  inputReduction : Reduction
  inputInversions : Bool
  embed : Nat
  layers : Nat
  lstm : Nat
  hidden : Nat

/-- A chord sequence model: its class and `hparams` (`save_hyperparameters`, chord_sequence_models.py:271 and 420). -/
inductive CsmModel where
  | simple (s : CsmSizes) (outReduction : Reduction) (outInversions : Bool)
  | pitchBased (s : CsmSizes)

/-- `hparams` which both classes have. -/
def CsmModel.sizes : CsmModel → CsmSizes
  | .simple s _ _ => s
  | .pitchBased s => s

/-- chord_sequence_models.py:274-285 and 423-434 `input_dim`. -/
def CsmSizes.inputDim (s : CsmSizes) : Nat :=
  chordVectorLength s.chordType true false + keyChangeVectorLength s.keyType false + 1

/-- chord_sequence_models.py:286-293 and 435 `output_dim`. -/
def CsmModel.outputDim : CsmModel → Int
  | .simple s red inv => chordOneHotLength s.outType true inv false red
  | .pitchBased _ => MAX_RELATIVE_TPC - MIN_RELATIVE_TPC

/-- The names and sizes of the weights of layer `i` of an `nn.LSTM`. -/
def lstmShapes (input hidden i : Nat) : List (Str × Nat × List Int) :=
  [(chars% "weight_ih", i, [4 * hidden, if i = 0 then input else hidden]), (chars% "weight_hh", i, [4 * hidden, hidden]),
    (chars% "bias_ih", i, [4 * hidden]), (chars% "bias_hh", i, [4 * hidden])]

/-- chord_sequence_models.py:295-314 and 437-456: the names and sizes in the `state_dict`, in order. -/
def CsmModel.shapes (m : CsmModel) : List (Str × Nat × List Int) :=
  let s := m.sizes
  [(chars% "embed.weight", 0, [(s.embed : Int), s.inputDim]), (chars% "embed.bias", 0, [(s.embed : Int)])] ++
    (List.range s.layers).flatMap (lstmShapes s.embed s.lstm) ++
    [(chars% "fc1.weight", 0, [(s.hidden : Int), s.lstm]), (chars% "fc1.bias", 0, [(s.hidden : Int)]),
      (chars% "fc2.weight", 0, [m.outputDim, (s.hidden : Int)]), (chars% "fc2.bias", 0, [m.outputDim])]

/-- `load_from_checkpoint` of a class: a model with those `hparams` of the checkpoint which are parameters of the class
and defaults for the others (chord_sequence_models.py:218, 220); `none` for another class. -/
def csmRebuild (cls : Str) (saved : CsmModel) : Option CsmModel :=
  if cls = TrainClass.csm.className then
    match saved with
    | .simple s red inv => some (.simple s red inv)
    | .pitchBased s => some (.simple s noReduction true)
  else if cls = TrainClass.csmPitch.className then some (.pitchBased saved.sizes)
  else none

/-- `load_from_checkpoint` with `strict=True`: names and sizes of the weights `ω` must be those of the model. -/
def csmLoad {ω : Type} (saved : CsmModel × ω) (cls : Str) : Py (CsmModel × ω) :=
  match csmRebuild cls saved.1 with
  | none => .error .typeError
  | some m => if m.shapes = saved.1.shapes then .ok (m, saved.2) else .error .valueError

end Verif
