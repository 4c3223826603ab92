import Verif.StateInputs
import Verif.JointInit

/-!
# The prior of a chord in the search

Model of /repo/harmonic_inference/utils/beam_search_utils.py:396-490 (`State.add_csm_prior`) for a chord
sequence model that is not pitch-based (see `ClassData` for the pitch-based part).
-/

namespace Verif

namespace State
variable {κ H P : Type}

/-- beam_search_utils.py:431-436: the settings of the prior. The prior after the start of the piece is
that of the ICM, which has all chords. -/
def priorSettings (q : Node κ H P) (useInv : Bool) (red : Reduction) : Bool × Reduction :=
  if q.changeIndex = 0 then (true, noReduction) else (useInv, red)

/-- beam_search_utils.py:431-456: the index into the prior. Reading a field of a missing previous state is
an `AttributeError`. -/
def csmPriorIndex (L : Labels) (pt : PitchType) (useInv : Bool) (red : Reduction) (s : State κ H P) :
    Py Int :=
  match s.prev with
  | [] => .error .attributeError
  | q :: _ => do
    let settings := priorSettings q useInv red
    let i ← relativeChordIndex L pt s
    let js ← reduceChordOneHots [i] false pt true noReduction true settings.2 settings.1
    pyGet js 0

/-- beam_search_utils.py:58-66, 487: the log prior of a state is an array; indexing None is a
`TypeError`. -/
def priorEntry (prior : Option (List κ)) (i : Int) : Py κ :=
  match prior with
  | none => .error .typeError
  | some p => pyGet p i

/-- beam_search_utils.py:396-490 `State.add_csm_prior`: the log probability that is added. -/
def csmPriorCost (scale : κ → Int → κ) (L : Labels) (pt : PitchType) (useInv : Bool) (red : Reduction)
    (s : State κ H (List κ)) : Py κ :=
  match s.prev with
  | [] => .error .attributeError
  | q :: _ => do
    let i ← csmPriorIndex L pt useInv red s
    let lp ← priorEntry s.node.csmPrior i
    .ok (scale lp ((s.node.changeIndex : Int) - q.changeIndex))

end State

/-- The search runs the networks `N` with the caches `C` and reads the priors of chords as they are
written: joint_model.py:839-1377 with a joint model of /repo/harmonic_inference/models/joint_model.py:
271-283. `useInv` and `red` are `use_output_inversions` and `output_reduction` of the CSM. -/
structure RunsNets {κ ρ H : Type} [DecidableEq H] (d : SearchData κ ρ H (List κ))
    (N : Nets κ ρ H (List κ)) (C : Caches) (useInv : Bool) (red : Reduction) : Prop
    extends UsesNets d N C where
  labels : d.labels = stdLabels d.pitchType
  relativeKeys : d.relativeKeys = relativeKeyLabels d.pitchType
  csmCost : ∀ s, d.csmCost s = s.csmPriorCost d.scale d.labels d.pitchType useInv red

end Verif
