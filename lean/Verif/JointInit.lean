import Verif.StateInputs
import Verif.KwargsJson

/-!
# Creation of the joint model

Model of `HarmonicInferenceModel.__init__` and `check_input_output_types`
(/repo/harmonic_inference/models/joint_model.py:182-371), `from_args` (2076-2111), `set_default_args`
(/repo/annotate.py:26-128), and of how test.py and annotate.py use them. Floating point numbers are rationals. A failing
`assert` is a `valueError` here.
-/

namespace Verif

/-- The hyperparameters, joint_model.py:188-201. -/
structure HyperParams where
  minChordChangeProb : ℚ
  maxNoChordChangeProb : ℚ
  maxChordLength : ℚ
  minKeyChangeProb : ℚ
  maxNoKeyChangeProb : ℚ
  beamSize : Int
  maxChordBranchingFactor : Int
  targetChordBranchProb : ℚ
  maxKeyBranchingFactor : Int
  targetKeyBranchProb : ℚ
  hashLength : Int
  ksmExponent : ℚ
  deriving DecidableEq, Repr

/-- joint_model.py:47-58 and 72-178: the values of the options that are not given. -/
def parserDefaults : HyperParams where
  minChordChangeProb := 1/4
  maxNoChordChangeProb := 9/20
  maxChordLength := 8
  minKeyChangeProb := 1/20
  maxNoKeyChangeProb := 3/4
  beamSize := 50
  maxChordBranchingFactor := 5
  targetChordBranchProb := 3/4
  maxKeyBranchingFactor := 2
  targetKeyBranchProb := 1/2
  hashLength := 5
  ksmExponent := 50

/-- What the scripts read of their arguments: `--defaults`, `--fh-defaults`, `--csm-version` and the
hyperparameters (annotate.py:216-272 and 306, test.py:393-409 and 442-464). -/
structure RunArgs where
  defaults : Bool
  fhDefaults : Bool
  csmVersion : Option Int
  hyper : HyperParams
  deriving DecidableEq, Repr

/-- annotate.py:37-81: the values for `--defaults`; `none` is `sys.exit(1)`. -/
def internalHyper (version : Option Int) : Option HyperParams :=
  if version = some 0 then
    some { minChordChangeProb := 1/4, maxNoChordChangeProb := 9/20, maxChordLength := 8, minKeyChangeProb := 1/10,
           maxNoKeyChangeProb := 3/4, beamSize := 50, maxChordBranchingFactor := 5, targetChordBranchProb := 3/4,
           maxKeyBranchingFactor := 2, targetKeyBranchProb := 1/2, hashLength := 5, ksmExponent := 100 }
  else if version = some 1 then
    some { minChordChangeProb := 1/4, maxNoChordChangeProb := 1/2, maxChordLength := 8, minKeyChangeProb := 1/20,
           maxNoKeyChangeProb := 3/4, beamSize := 50, maxChordBranchingFactor := 5, targetChordBranchProb := 3/4,
           maxKeyBranchingFactor := 2, targetKeyBranchProb := 1/2, hashLength := 5, ksmExponent := 50 }
  else if version = some 2 ∨ version = none then
    some { minChordChangeProb := 1/4, maxNoChordChangeProb := 9/20, maxChordLength := 8, minKeyChangeProb := 1/20,
           maxNoKeyChangeProb := 3/4, beamSize := 50, maxChordBranchingFactor := 5, targetChordBranchProb := 1/2,
           maxKeyBranchingFactor := 2, targetKeyBranchProb := 1/2, hashLength := 5, ksmExponent := 50 }
  else none

/-- annotate.py:84-128: the values for `--fh-defaults`. -/
def fhHyper (version : Option Int) : Option HyperParams :=
  if version = some 0 then
    some { minChordChangeProb := 3/10, maxNoChordChangeProb := 2/5, maxChordLength := 8, minKeyChangeProb := 1/10,
           maxNoKeyChangeProb := 7/10, beamSize := 50, maxChordBranchingFactor := 5, targetChordBranchProb := 3/4,
           maxKeyBranchingFactor := 2, targetKeyBranchProb := 1/2, hashLength := 5, ksmExponent := 30 }
  else if version = some 1 then
    some { minChordChangeProb := 3/10, maxNoChordChangeProb := 2/5, maxChordLength := 8, minKeyChangeProb := 1/10,
           maxNoKeyChangeProb := 7/10, beamSize := 50, maxChordBranchingFactor := 5, targetChordBranchProb := 3/4,
           maxKeyBranchingFactor := 2, targetKeyBranchProb := 1/2, hashLength := 5, ksmExponent := 30 }
  else if version = some 2 ∨ version = none then
    some { minChordChangeProb := 3/10, maxNoChordChangeProb := 2/5, maxChordLength := 8, minKeyChangeProb := 1/10,
           maxNoKeyChangeProb := 7/10, beamSize := 50, maxChordBranchingFactor := 5, targetChordBranchProb := 3/4,
           maxKeyBranchingFactor := 2, targetKeyBranchProb := 1/2, hashLength := 5, ksmExponent := 30 }
  else none

/-- annotate.py:36-81. -/
def setInternal (a : RunArgs) : Option RunArgs :=
  if a.defaults then (internalHyper a.csmVersion).map fun h => { a with hyper := h } else some a

/-- annotate.py:83-128. -/
def setFh (a : RunArgs) : Option RunArgs :=
  if a.fhDefaults then (fhHyper a.csmVersion).map fun h => { a with hyper := h } else some a

/-- annotate.py:26-128 `set_default_args`; `none` is `sys.exit(1)`. -/
def setDefaultArgs (a : RunArgs) : Option RunArgs := (setInternal a).bind setFh

/-- The types of the component models: chord_classifier_models.py:58-60, chord_transition_models.py:43-44,
chord_sequence_models.py:62-64, key_sequence_models.py:53-55, key_transition_models.py:50-51 and
initial_chord_models.py:44. -/
structure ComponentTypes where
  ccmInput : PieceKind
  ccmNotes : PitchType
  ccmOutput : PitchType
  ctmInput : PieceKind
  ctmNotes : PitchType
  csmChords : PitchType
  csmKeys : PitchType
  csmOutput : PitchType
  ksmChords : PitchType
  ksmKeys : PitchType
  ksmOutput : PitchType
  ktmChords : PitchType
  ktmKeys : PitchType
  icm : PitchType
  deriving DecidableEq, Repr

/-- `assert`. -/
def pyAssert (b : Bool) : Py Unit := if b then .ok () else .error .valueError

/-- joint_model.py:323-371 `check_input_output_types`. -/
def checkTypes (t : ComponentTypes) : Py Unit := do
  pyAssert (t.ccmInput = t.ctmInput)
  pyAssert (t.ccmNotes = t.ctmNotes)
  pyAssert (t.ccmOutput = t.csmChords)
  pyAssert (t.csmOutput = t.ksmChords)
  pyAssert (t.csmOutput = t.ksmChords)
  pyAssert (t.csmOutput = t.csmChords)
  pyAssert (t.csmKeys = t.ksmOutput)
  pyAssert (t.ktmKeys = t.ksmOutput)
  pyAssert (t.ksmKeys = t.ksmOutput)
  pyAssert (t.icm = t.csmOutput)

/-- joint_model.py:274-283 `LABELS["relative_key"]`. -/
def relativeKeyLabels (keyType : PitchType) : List (KeyMode × Int) :=
  KeyMode.all.flatMap fun mode =>
    (match keyType with
      | .tpc => pyRange MIN_KEY_CHANGE_INTERVAL_TPC MAX_KEY_CHANGE_INTERVAL_TPC
      | .midi => pyRange 0 (NUM_PITCHES .midi)).map fun interval => (mode, interval)

/-- A joint model: its types (joint_model.py:266-268), its labels (271-283) and its parameters (286-314). -/
structure JointModel where
  inputType : PieceKind
  chordOutput : PitchType
  keyOutput : PitchType
  labels : Labels
  relativeKeys : List (KeyMode × Int)
  params : HyperParams

/-- joint_model.py:182-321 `HarmonicInferenceModel.__init__`, given models of the right classes (248-253). -/
def initJoint (t : ComponentTypes) (h : HyperParams) : Py JointModel := do
  checkTypes t
  pyAssert (h.minChordChangeProb ≤ h.maxNoChordChangeProb)
  pyAssert (h.minKeyChangeProb ≤ h.maxNoKeyChangeProb)
  .ok
    { inputType := t.ccmInput
      chordOutput := t.csmOutput
      keyOutput := t.ksmOutput
      labels := ⟨chordClasses t.csmOutput true false false noReduction, keyClasses t.ksmOutput false⟩
      relativeKeys := relativeKeyLabels t.ksmOutput
      params :=
        { minChordChangeProb := h.minChordChangeProb
          maxNoChordChangeProb := h.maxNoChordChangeProb
          maxChordLength := h.maxChordLength
          minKeyChangeProb := h.minKeyChangeProb
          maxNoKeyChangeProb := h.maxNoKeyChangeProb
          maxChordBranchingFactor := h.maxChordBranchingFactor
          targetChordBranchProb := h.targetChordBranchProb
          maxKeyBranchingFactor := h.maxKeyBranchingFactor
          targetKeyBranchProb := h.targetKeyBranchProb
          ksmExponent := h.ksmExponent
          beamSize := h.beamSize
          hashLength := h.hashLength } }

/-- joint_model.py:2076-2111 `from_args`. -/
def jointFromArgs (t : ComponentTypes) (a : RunArgs) : Py JointModel :=
  initJoint t
    { minChordChangeProb := a.hyper.minChordChangeProb
      maxNoChordChangeProb := a.hyper.maxNoChordChangeProb
      maxChordLength := a.hyper.maxChordLength
      minKeyChangeProb := a.hyper.minKeyChangeProb
      maxNoKeyChangeProb := a.hyper.maxNoKeyChangeProb
      beamSize := a.hyper.beamSize
      maxChordBranchingFactor := a.hyper.maxChordBranchingFactor
      targetChordBranchProb := a.hyper.targetChordBranchProb
      maxKeyBranchingFactor := a.hyper.maxKeyBranchingFactor
      targetKeyBranchProb := a.hyper.targetKeyBranchProb
      hashLength := a.hyper.hashLength
      ksmExponent := a.hyper.ksmExponent }

/-- What a script comes to before it runs the model. -/
inductive ScriptStart where
  | exit (code : Int)
  | raised (e : PyErr)
  | model (m : JointModel)

/-- The result of a function as the start of a script. -/
def ScriptStart.of : Py JointModel → ScriptStart
  | .ok m => .model m
  | .error e => .raised e

/-- test.py:554-586: the model that is evaluated, given the types of the loaded models (which depend on the
version of the CSM and on the other arguments). -/
def testStart (t : ComponentTypes) (a : RunArgs) : ScriptStart :=
  match setDefaultArgs a with
  | none => .exit 1
  | some a => .of (jointFromArgs t a)

/-- annotate.py:323-333: the model that annotates. `set_default_args` is not called. -/
def annotateStart (t : ComponentTypes) (a : RunArgs) : ScriptStart := .of (jointFromArgs t a)

/-- chord_sequence_models.py:274-285 and 423-434 `input_dim`. -/
def csmInputDim (t : ComponentTypes) : Nat :=
  chordVectorLength t.csmChords true false + keyChangeVectorLength t.csmKeys false + 1

/-- chord_sequence_models.py:286-293 `output_dim`. -/
def csmOutputDim (t : ComponentTypes) (useInv : Bool) (red : Reduction) : Int :=
  chordOneHotLength t.csmOutput true useInv false red

/-- key_transition_models.py:240-251 `input_dim`. -/
def ktmInputDim (t : ComponentTypes) : Nat :=
  chordVectorLength t.ktmChords true true + keyChangeVectorLength t.ktmKeys false + 1

/-- key_sequence_models.py:234-245 `input_dim`. -/
def ksmInputDim (t : ComponentTypes) : Nat :=
  chordVectorLength t.ksmChords true true + keyChangeVectorLength t.ksmKeys false + 1

/-- key_sequence_models.py:246 `output_dim`. -/
def ksmOutputDim (t : ComponentTypes) : Nat := keyChangeVectorLength t.ksmOutput true

/-- chord_classifier_models.py:244 and chord_transition_models.py:210 `input_dim`. -/
def noteInputDim (notes : PitchType) : Nat := noteVectorLength notes

/-- chord_classifier_models.py:245-252 `num_classes`. -/
def ccmClasses (t : ComponentTypes) (useInv : Bool) (red : Reduction) : Int :=
  chordOneHotLength t.ccmOutput false useInv false red

end Verif
